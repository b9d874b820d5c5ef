import Verif.Random.Model
import Mathlib.Dynamics.PeriodicPts.Defs
import Mathlib.Data.Nat.Prime.Basic
import Mathlib.Tactic.Ring
/-
Property theorems for the pseudo random generator (C07).
-/
namespace Cio.Random

/-- Specification: the linear congruential step of PCG, `s ↦ a * s + c`. -/
def lcg (r : Rng) (s : BitVec 64) : BitVec 64 := s * 6364136223846793005#64 + r.inc

/-- Specification: the `i`-th state of the generator, the step iterated. -/
def stateAt (r : Rng) : Nat → BitVec 64
  | 0 => r.state
  | n + 1 => lcg r (stateAt r n)

theorem stateAt_zero (r : Rng) : stateAt r 0 = r.state := by rw [stateAt]
theorem stateAt_succ (r : Rng) (n : Nat) : stateAt r (n + 1) = lcg r (stateAt r n) := by rw [stateAt]
theorem step_state (r : Rng) : (step r).state = lcg r r.state := by rw [step, lcg, MULTIPLIER]
theorem step_inc (r : Rng) : (step r).inc = r.inc := by rw [step]

/-- Specification: byte `i` of the stream is the low byte of the XSH-RR output (xorshift, then rotate right by the top five
bits) of state `i`. -/
def byteAt (r : Rng) (i : Nat) : UInt8 :=
  let s := stateAt r i
  let x : BitVec 32 := (((s >>> 18) ^^^ s) >>> 27).truncate 32
  UInt8.ofBitVec ((x.rotateRight (s >>> 59).toNat).truncate 8)

theorem rotr32_eq (v : BitVec 32) (k : Nat) (h : k < 32) : rotr32 v (BitVec.ofNat 32 k) = v.rotateRight k := by
  unfold rotr32
  rw [BitVec.rotateRight_def, Nat.mod_eq_of_lt h]
  have h1 : (BitVec.ofNat 32 k).toNat = k := by simp; omega
  have h2 : ((~~~(BitVec.ofNat 32 k) + 1) &&& 31#32).toNat = (32 - k) % 32 := by
    have : ∀ k : Fin 32, ((~~~(BitVec.ofNat 32 k.val) + 1) &&& 31#32).toNat = (32 - k.val) % 32 := by decide +kernel
    exact this ⟨k, h⟩
  rw [BitVec.ushiftRight_eq', BitVec.shiftLeft_eq', h1, h2]
  by_cases hk : k = 0
  · subst hk; simp
  · rw [Nat.mod_eq_of_lt (by omega)]

theorem output_eq (s : BitVec 64) :
    output s = BitVec.rotateRight ((((s >>> 18) ^^^ s) >>> 27).truncate 32) (s >>> 59).toNat := by
  have hlt : (s >>> 59).toNat < 32 := by
    have := s.isLt
    simp only [BitVec.toNat_ushiftRight, Nat.shiftRight_eq_div_pow]
    omega
  unfold output
  have e : (s >>> 59).truncate 32 = BitVec.ofNat 32 (s >>> 59).toNat := by
    apply BitVec.eq_of_toNat_eq; simp
  rw [e, rotr32_eq _ _ hlt]

theorem stateAt_step (r : Rng) (n : Nat) : stateAt (step r) n = stateAt r (n + 1) := by
  induction n with
  | zero => rw [stateAt_zero, stateAt_succ, stateAt_zero, step_state]
  | succ n ih => rw [stateAt_succ, ih, stateAt_succ r (n+1), lcg, step_inc, lcg]

theorem byteAt_step (r : Rng) (n : Nat) : byteAt (step r) n = byteAt r (n + 1) := by
  unfold byteAt; rw [stateAt_step]

theorem getBytes_zero (r : Rng) : getBytes 0 r = ([], r) := by rw [getBytes]
theorem getBytes_succ (n : Nat) (r : Rng) : getBytes (n + 1) r =
    (UInt8.ofBitVec ((output r.state).truncate 8) :: (getBytes n (step r)).1, (getBytes n (step r)).2) := by
  rw [getBytes, random]

theorem getBytes_spec (n : Nat) (r : Rng) :
    (getBytes n r).1 = (List.range n).map (byteAt r) ∧ (getBytes n r).2 = { state := stateAt r n, inc := r.inc } := by
  induction n generalizing r with
  | zero => rw [getBytes_zero, stateAt_zero]; exact ⟨rfl, rfl⟩
  | succ n ih =>
    rw [getBytes_succ]
    refine ⟨?_, ?_⟩
    · rw [(ih (step r)).1, List.range_succ_eq_map, List.map_cons, List.map_map]
      refine List.cons_eq_cons.mpr ⟨?_, ?_⟩
      · unfold byteAt; rw [output_eq, stateAt_zero]
      · apply List.map_congr_left
        intro i _
        rw [byteAt_step, Function.comp]
    · rw [(ih (step r)).2, stateAt_step, step_inc]

/-- C07: a request for `n` bytes writes exactly the first `n` bytes of the stream fixed by the generator's state. -/
theorem random_get_bytes_correct (n : Nat) (r : Rng) : (getBytes n r).1 = (List.range n).map (byteAt r) :=
  (getBytes_spec n r).1

theorem getBytes_add (a b : Nat) (r : Rng) :
    getBytes (a + b) r = ((getBytes a r).1 ++ (getBytes b (getBytes a r).2).1, (getBytes b (getBytes a r).2).2) := by
  induction a generalizing r with
  | zero => rw [getBytes_zero, Nat.zero_add, List.nil_append]
  | succ a ih =>
    rw [show a + 1 + b = (a + b) + 1 by omega]
    rw [getBytes_succ, getBytes_succ, ih]
    simp only [List.cons_append]

/-- C07: how the requests are cut does not matter. -/
theorem random_pieces (ns : List Nat) (r : Rng) : getPieces ns r = getBytes ns.sum r := by
  induction ns generalizing r with
  | nil => rfl
  | cons n ns ih =>
    rw [List.sum_cons, getBytes_add]
    simp only [getPieces, ih]

/-- C07: whatever the entropy source does, the generator has an odd increment afterwards and keeps it through every request; a
failing source is reported and leads to the fixed seed (0, 0). -/
theorem seed_inc_odd {Err : Type} (e : Entropy Err) (n : Nat) : (getBytes n (seed e).2).2.inc.getLsbD 0 = true := by
  rw [(getBytes_spec n _).2]
  cases e <;> simp [seed, srandom, step]

theorem seed_error {Err : Type} (e : Err) : seed (.fail e) = (some e, srandom 0 0) := rfl

/-! ### Full period -/

/-- The state transition of a linear congruential generator modulo `2 ^ K`. -/
def nstep (K a c x : Nat) : Nat := (x * a + c) % 2 ^ K

/-- `a ^ (2 ^ k)` is one modulo `2 ^ (k + 2)`, and the geometric sum `1 + a + ... + a ^ (2 ^ k - 1)` is `2 ^ k` times an odd
number. -/
theorem geometric (v k : Nat) : ∃ u s o : Nat, (1 + 4 * v) ^ (2 ^ k) = 1 + 2 ^ (k + 2) * u ∧
    s = 2 ^ k * (2 * o + 1) ∧
    ∀ c x : Nat, (fun x => x * (1 + 4 * v) + c)^[2 ^ k] x = x * (1 + 4 * v) ^ (2 ^ k) + c * s := by
  induction k with
  | zero =>
    refine ⟨v, 1, 0, by simp, by simp, ?_⟩
    intro c x
    simp
  | succ k ih =>
    obtain ⟨u, s, o, h1, h2, h3⟩ := ih
    have hp : (2 : Nat) ^ (k + 1) = 2 ^ k + 2 ^ k := by rw [Nat.pow_succ]; omega
    have e1 : (1 + 4 * v) ^ (2 ^ (k + 1)) = ((1 + 4 * v) ^ (2 ^ k)) * ((1 + 4 * v) ^ (2 ^ k)) := by
      rw [hp, Nat.pow_add]
    refine ⟨u + 2 ^ (k + 1) * u * u, s * (1 + (1 + 4 * v) ^ (2 ^ k)), 2 ^ k * u * (2 * o + 1) + o, ?_, ?_, ?_⟩
    · rw [e1, h1, show k + 1 + 2 = (k + 2) + 1 by omega, show k + 2 = k + 1 + 1 by omega]
      simp only [Nat.pow_succ]
      ring
    · rw [h1, h2, show k + 2 = k + 1 + 1 by omega]
      simp only [Nat.pow_succ]
      ring
    · intro c x
      rw [hp, Function.iterate_add_apply, h3, h3, ← hp, e1]
      ring

theorem nstep_iterate (K a c n x : Nat) (hx : x < 2 ^ K) :
    (nstep K a c)^[n] x = ((fun x => x * a + c)^[n] x) % 2 ^ K := by
  induction n with
  | zero => simp [Nat.mod_eq_of_lt hx]
  | succ n ih =>
    rw [Function.iterate_succ_apply', Function.iterate_succ_apply', ih]
    unfold nstep
    simp [Nat.add_mod, Nat.mul_mod]

/-- After `2 ^ k` steps (`k < K`) an LCG with odd increment is not back ... -/
theorem nstep_pow (K v c x k : Nat) (hc : c % 2 = 1) (hx : x < 2 ^ K) (hk : k < K) :
    (nstep K (1 + 4 * v) c)^[2 ^ k] x ≠ x := by
  rw [nstep_iterate K _ c _ x hx]
  obtain ⟨u, s, o, h1, h2, h3⟩ := geometric v k
  rw [h3, h1, h2]
  intro h
  obtain ⟨d, rfl⟩ : ∃ d, c = 2 * d + 1 := ⟨c / 2, by omega⟩
  -- the difference is an odd multiple of 2 ^ k
  have e : x * (1 + 2 ^ (k + 2) * u) + (2 * d + 1) * (2 ^ k * (2 * o + 1)) =
      x + 2 ^ k * (2 * (2 * x * u + 2 * d * o + d + o) + 1) := by
    simp only [Nat.pow_succ]; ring
  rw [e] at h
  have hmod : (x + 2 ^ k * (2 * (2 * x * u + 2 * d * o + d + o) + 1)) % 2 ^ (k + 1) = x % 2 ^ (k + 1) := by
    have hdvd : 2 ^ (k + 1) ∣ 2 ^ K := Nat.pow_dvd_pow 2 (by omega)
    rw [← Nat.mod_mod_of_dvd _ hdvd, h]
  rw [show 2 ^ k * (2 * (2 * x * u + 2 * d * o + d + o) + 1) =
    2 ^ (k + 1) * (2 * x * u + 2 * d * o + d + o) + 2 ^ k by rw [Nat.pow_succ]; ring,
    ← Nat.add_assoc, Nat.add_right_comm, Nat.add_mul_mod_self_left] at hmod
  have hlt : x % 2 ^ (k + 1) < 2 ^ (k + 1) := Nat.mod_lt _ (Nat.pow_pos (by decide))
  have hpos : 0 < 2 ^ k := Nat.pow_pos (by decide)
  have hp : 2 ^ (k + 1) = 2 ^ k + 2 ^ k := by rw [Nat.pow_succ]; omega
  rw [Nat.add_mod, Nat.mod_eq_of_lt (show 2 ^ k < 2 ^ (k + 1) by omega)] at hmod
  rcases Nat.lt_or_ge (x % 2 ^ (k + 1) + 2 ^ k) (2 ^ (k + 1)) with hh | hh
  · rw [Nat.mod_eq_of_lt hh] at hmod; omega
  · rw [Nat.mod_eq_sub_mod hh, Nat.mod_eq_of_lt (by omega)] at hmod; omega

/-- ... after `2 ^ K` it is. -/
theorem nstep_full (K v c x : Nat) (hx : x < 2 ^ K) : (nstep K (1 + 4 * v) c)^[2 ^ K] x = x := by
  rw [nstep_iterate K _ c _ x hx]
  obtain ⟨u, s, o, h1, h2, h3⟩ := geometric v K
  rw [h3, h1, h2]
  rw [show x * (1 + 2 ^ (K + 2) * u) + c * (2 ^ K * (2 * o + 1)) = x + 2 ^ K * (x * 4 * u + c * (2 * o + 1)) by
    simp only [Nat.pow_succ]; ring,
    Nat.add_mul_mod_self_left, Nat.mod_eq_of_lt hx]

theorem nstep_no_return (K v c x n : Nat) (hc : c % 2 = 1) (hx : x < 2 ^ K) (hn : 0 < n) (hn' : n < 2 ^ K) :
    (nstep K (1 + 4 * v) c)^[n] x ≠ x := by
  intro h
  have hg : Function.IsPeriodicPt (nstep K (1 + 4 * v) c) (Nat.gcd n (2 ^ K)) x :=
    Function.IsPeriodicPt.gcd (f := nstep K (1 + 4 * v) c) (x := x) h (nstep_full K v c x hx)
  obtain ⟨k, hk, hk'⟩ := (Nat.dvd_prime_pow Nat.prime_two).mp (Nat.gcd_dvd_right n (2 ^ K))
  rw [hk'] at hg
  have hkn : 2 ^ k ≤ n := by rw [← hk']; exact Nat.gcd_le_left _ hn
  have : k < K := by
    rcases Nat.lt_or_ge k K with h | h
    · exact h
    · exact absurd (Nat.lt_of_lt_of_le hn' (Nat.pow_le_pow_right (by decide) h)) (by omega)
  exact nstep_pow K v c x k hc hx this hg

theorem stateAt_toNat (r : Rng) (n : Nat) : (stateAt r n).toNat = (nstep 64 (1 + 4 * 1591034055961698251) r.inc.toNat)^[n] r.state.toNat := by
  induction n with
  | zero => rw [stateAt_zero, Function.iterate_zero, id]
  | succ n ih =>
    have hm : (6364136223846793005#64).toNat = 1 + 4 * 1591034055961698251 := by decide
    rw [Function.iterate_succ_apply', ← ih, stateAt_succ, lcg, nstep, BitVec.toNat_add, BitVec.toNat_mul, hm,
      Nat.mod_add_mod]

/-- C07: a seeded generator visits 2^64 different states before it repeats: for every entropy result, no two of the first 2^64
states of the stream are equal. -/
theorem random_full_period {Err : Type} (e : Entropy Err) (i j : Nat) (hij : i < j) (hj : j - i < 2 ^ 64) :
    stateAt (seed e).2 i ≠ stateAt (seed e).2 j := by
  intro h
  have hinc : (seed e).2.inc.toNat % 2 = 1 := by
    have := seed_inc_odd e 0
    simp only [getBytes] at this
    rw [BitVec.getLsbD, Nat.testBit_zero] at this
    simpa using this
  have ht := congrArg BitVec.toNat h
  rw [stateAt_toNat, stateAt_toNat, show j = (j - i) + i by omega, Function.iterate_add_apply] at ht
  have hlt : (nstep 64 (1 + 4 * 1591034055961698251) (seed e).2.inc.toNat)^[i] (seed e).2.state.toNat < 2 ^ 64 := by
    rw [← stateAt_toNat]; exact (stateAt _ _).isLt
  exact nstep_no_return 64 _ _ _ (j - i) hinc hlt (by omega) hj ht.symm

/-- C07: the whole seed matters: two seeds lead to the same generator only if they agree in all bits of the first half and in the lower 63 bits of the second. -/
theorem seeds_distinguished (s0 s1 t0 t1 : BitVec 64) : srandom s0 s1 = srandom t0 t1 ↔ s0 = t0 ∧ ∀ i < 63, s1.getLsbD i = t1.getLsbD i := by
  have hinc : ∀ a b : BitVec 64, (srandom a b).inc = (b <<< 1) ||| 1 := fun _ _ => rfl
  have hmul : ∀ x y : BitVec 64, x * MULTIPLIER = y * MULTIPLIER → x = y := by
    intro x y h
    have hinv : ∀ z : BitVec 64, z * MULTIPLIER * 13877824140714322085#64 = z := by
      intro z
      rw [BitVec.mul_assoc]
      have : MULTIPLIER * 13877824140714322085#64 = 1#64 := by decide +kernel
      rw [this, BitVec.mul_one]
    rw [← hinv x, ← hinv y, h]
  have hbits : ((s1 <<< 1) ||| 1#64 = (t1 <<< 1) ||| 1#64) ↔ ∀ i < 63, s1.getLsbD i = t1.getLsbD i := by
    constructor
    · intro h i hi
      have := congrArg (fun b => b.getLsbD (i + 1)) h
      rw [BitVec.getLsbD_eq_getElem (show i < 64 by omega), BitVec.getLsbD_eq_getElem (show i < 64 by omega)]
      simpa [show i + 1 < 64 by omega] using this
    · intro h
      apply BitVec.eq_of_getLsbD_eq
      intro i hi
      cases i with
      | zero => simp
      | succ i =>
        have := h i (by omega)
        simp [this]
  have hst : ∀ a b : BitVec 64, (srandom a b).state = (0 * MULTIPLIER + (srandom a b).inc + a) * MULTIPLIER + (srandom a b).inc := fun _ _ => rfl
  have hbits' : (srandom s0 s1).inc = (srandom t0 t1).inc ↔ ∀ i < 63, s1.getLsbD i = t1.getLsbD i := by rw [hinc, hinc]; exact hbits
  have hcanc : ∀ c x y : BitVec 64, c + x = c + y → x = y := fun c x y h => (BitVec.add_right_inj c).mp h
  have hcanc' : ∀ c x y : BitVec 64, x + c = y + c → x = y := fun c x y h => (BitVec.add_left_inj c).mp h
  have h1s := hst s0 s1
  have h1t := hst t0 t1
  rw [← hbits']
  generalize srandom s0 s1 = r at h1s ⊢
  generalize srandom t0 t1 = q at h1t ⊢
  obtain ⟨st, i⟩ := r
  obtain ⟨st', i'⟩ := q
  simp only at h1s h1t ⊢
  constructor
  · intro h
    injection h with ha hb
    subst hb
    rw [h1s, h1t] at ha
    exact ⟨hcanc _ _ _ (hmul _ _ (hcanc' _ _ _ ha)), rfl⟩
  · rintro ⟨ha, hb⟩
    subst ha hb
    rw [h1s, h1t]

/-- Non-vacuity: three bytes in two requests. -/
example : (getPieces [1, 2] (srandom 42 54)).1.length = 3 ∧ (srandom 42 54).inc.getLsbD 0 = true := by decide +kernel

/-- The first outputs for the seed (42, 54) of the PCG reference implementation: 0xa15c02b7, 0x7b47f409, 0xba1d3330. -/
example : (getBytes 3 (srandom 42 54)).1 = [0xb7, 0x09, 0x30] := by decide +kernel

end Cio.Random
