import Verif.Utf8.Props
/-
The UTF-8 checker on every machine (C01, C02): `cio_check_utf8` reads its string in pieces of
`sizeof(uint_fast32_t)` bytes.  `Verif.Utf8.Model` fixes that to the 8 bytes of 64 bit Linux; here it is a
parameter `W` (4 on Zephyr and Windows).
-/
namespace Cio.Utf8.AnyMachine
open Cio.Utf8

/-- The main loop, utf8_checker.c 423-434: `n` words of `W` bytes from index `i`, each copied to a local buffer
first. -/
def scanWords (W : Nat) (mem : List UInt8) : Nat → Nat → State → Option (State × Bool)
  | _, 0, s => some (s, false)
  | i, n + 1, s => do
    let buffer := (mem.drop i).take W
    let (s', rej) ← scan buffer 0 W s
    if rej then return (s', true)
    else scanWords W mem (i + W) n s'

/-- `cio_check_utf8`, utf8_checker.c 397-446. -/
def check (W : Nat) (s : State) (addr : Nat) (string : List UInt8) : Option (UInt8 × State) := do
  let count := string.length
  let (pre, main, post) :=
    if count ≥ W then
      let pre := (W - addr % W) % W
      let main := (count - pre) / W
      (pre, main, count - pre - main * W)
    else (count, 0, 0)
  let (s1, rej) ← scan string 0 pre s
  if rej then return (REJECT, s1)
  let (s2, rej) ← scanWords W string pre main s1
  if rej then return (REJECT, s2)
  let (s3, rej) ← scan string (count - post) post s2
  if rej then return (REJECT, s3)
  return (s3.state, s3)

/-- A string fed in several calls, see `Cio.Utf8.checkPieces`. -/
def checkPieces (W : Nat) (s : State) : List (Nat × List UInt8) → Option (UInt8 × State)
  | [] => some (s.state, s)
  | (a, bs) :: rest => do
    let (r, s') ← check W s a bs
    match rest with
    | [] => return (r, s')
    | _ => checkPieces W s' rest

theorem scanWords_spec (W : Nat) (mem : List UInt8) (n i : Nat) (s : State) (h : s.state ∈ V)
    (hb : i + n * W ≤ mem.length) :
    ∃ s' rej, scanWords W mem i n s = some (s', rej) ∧ s'.state = run s.state ((mem.drop i).take (n * W)) ∧
      (rej = true → s'.state = 12) := by
  induction n generalizing i s with
  | zero => exact ⟨s, false, rfl, by simp [run], by simp⟩
  | succ n ih =>
    have hw : (n + 1) * W = W + n * W := by rw [Nat.succ_mul, Nat.add_comm]
    have hlen : ((mem.drop i).take W).length = W := by simp; omega
    obtain ⟨s1, rej, h1, h2, h3⟩ := scan_spec ((mem.drop i).take W) W 0 s h (by omega)
    have hsplit : (mem.drop i).take ((n + 1) * W) = (mem.drop i).take W ++ (mem.drop (i + W)).take (n * W) := by
      rw [hw, List.take_add]; simp
    have h2' : s1.state = run s.state ((mem.drop i).take W) := by
      rw [h2]; simp [List.take_take]
    have hv : s1.state ∈ V := by rw [h2']; exact run_mem _ h _
    simp only [scanWords, h1, hsplit, run_append, ← h2', Option.bind_eq_bind, Option.bind_some]
    cases rej with
    | true => exact ⟨s1, true, by simp, by rw [h3 rfl, run_reject], fun _ => h3 rfl⟩
    | false =>
      obtain ⟨s2, rej, g1, g2, g3⟩ := ih (i + W) s1 hv (by omega)
      exact ⟨s2, rej, by simp [g1], g2, g3⟩

theorem check_spec (W : Nat) (hW : 0 < W) (s : State) (addr : Nat) (bs : List UInt8) (h : s.state ∈ V) :
    ∃ s', check W s addr bs = some (run s.state bs, s') ∧ s'.state = run s.state bs := by
  unfold check
  simp only
  generalize hpm : (if bs.length ≥ W then
      ((W - addr % W) % W, (bs.length - (W - addr % W) % W) / W,
        bs.length - (W - addr % W) % W - (bs.length - (W - addr % W) % W) / W * W)
    else (bs.length, 0, 0)) = pm
  obtain ⟨pre, main, post⟩ := pm
  have hlen : pre + main * W + post = bs.length := by
    have hpre : (W - addr % W) % W < W := Nat.mod_lt _ hW
    have hle := Nat.div_mul_le_self (bs.length - (W - addr % W) % W) W
    split at hpm <;> simp only [Prod.mk.injEq] at hpm <;> obtain ⟨rfl, rfl, rfl⟩ := hpm <;> omega
  clear hpm
  have hsplit : bs = bs.take pre ++ ((bs.drop pre).take (main * W) ++ (bs.drop (bs.length - post)).take post) := by
    rw [show bs.length - post = pre + main * W by omega, ← List.drop_drop]
    rw [List.take_of_length_le (i := post) (by simp; omega), List.take_append_drop, List.take_append_drop]
  obtain ⟨s1, r1, a1, b1, c1⟩ := scan_spec bs pre 0 s h (by omega)
  have b1' : s1.state = run s.state (bs.take pre) := by simpa using b1
  have hv1 : s1.state ∈ V := by rw [b1']; exact run_mem _ h _
  obtain ⟨s2, r2, a2, b2, c2⟩ := scanWords_spec W bs main pre s1 hv1 (by omega)
  have hv2 : s2.state ∈ V := by rw [b2]; exact run_mem _ hv1 _
  obtain ⟨s3, r3, a3, b3, c3⟩ := scan_spec bs post (bs.length - post) s2 hv2 (by omega)
  have hrun : run s.state bs = run (run s1.state ((bs.drop pre).take (main * W))) ((bs.drop (bs.length - post)).take post) := by
    conv => lhs; rw [hsplit]
    rw [run_append, run_append, b1']
  simp only [a1, Option.bind_eq_bind, Option.bind_some]
  cases r1 with
  | true =>
    have : run s.state bs = 12 := by rw [hrun, c1 rfl, run_reject, run_reject]
    exact ⟨s1, by simp [REJECT, this], by rw [this, c1 rfl]⟩
  | false =>
    simp only [a2, Option.bind_some]
    cases r2 with
    | true =>
      have : run s.state bs = 12 := by rw [hrun, ← b2, c2 rfl, run_reject]
      exact ⟨s2, by simp [REJECT, this], by rw [this, c2 rfl]⟩
    | false =>
      simp only [a3, Option.bind_some]
      have e : s3.state = run s.state bs := by rw [hrun, ← b2, b3]
      cases r3 with
      | true => exact ⟨s3, by simp [REJECT, ← e, c3 rfl], e⟩
      | false => exact ⟨s3, by simp [e], e⟩

theorem checkPieces_spec (W : Nat) (hW : 0 < W) (s : State) (ps : List (Nat × List UInt8)) (h : s.state ∈ V) :
    ∃ s', checkPieces W s ps = some (run s.state (ps.flatMap Prod.snd), s') ∧
      s'.state = run s.state (ps.flatMap Prod.snd) := by
  induction ps generalizing s with
  | nil => exact ⟨s, rfl, rfl⟩
  | cons p ps ih =>
    obtain ⟨a, bs⟩ := p
    obtain ⟨s1, h1, h2⟩ := check_spec W hW s a bs h
    have hv : s1.state ∈ V := by rw [h2]; exact run_mem _ h _
    cases ps with
    | nil => exact ⟨s1, by simp [checkPieces, h1], by simpa using h2⟩
    | cons q qs =>
      obtain ⟨s2, g1, g2⟩ := ih s1 hv
      refine ⟨s2, ?_, ?_⟩
      · rw [checkPieces]
        simp only [h1, Option.bind_eq_bind, Option.bind_some]
        rw [g1, List.flatMap_cons (x := (a, bs)), run_append, h2]
      · rw [g2, List.flatMap_cons (x := (a, bs)), run_append, h2]

/-- C01 on every machine: whatever `sizeof(uint_fast32_t)` is, on a freshly initialised checker `cio_check_utf8`
never leaves its table or the string, returns ACCEPT exactly for well-formed UTF-8 and REJECT exactly for strings
that no continuation can make well-formed, at every address. -/
theorem check_utf8_correct (W : Nat) (hW : 0 < W) (s0 : State) (addr : Nat) (bs : List UInt8) :
    ∃ r s', check W (init s0) addr bs = some (r, s') ∧
      (r = ACCEPT ↔ WellFormed bs) ∧
      (r = REJECT ↔ ∀ suffix, ¬ WellFormed (bs ++ suffix)) := by
  obtain ⟨s', h, _⟩ := check_spec W hW (init s0) addr bs (by simp [init, V])
  exact ⟨_, s', h, run_zero_iff bs, run_reject_iff bs⟩

/-- C02 on every machine: the verdict on a string fed in any number of calls, at any addresses, with words of any
size, is the verdict of one call with the whole string at any address and with words of any other size. -/
theorem check_utf8_chunks (W W' : Nat) (hW : 0 < W) (hW' : 0 < W') (s0 : State) (addr : Nat)
    (pieces : List (Nat × List UInt8)) :
    ∃ r s1 s2, checkPieces W (init s0) pieces = some (r, s1) ∧
      check W' (init s0) addr (pieces.flatMap Prod.snd) = some (r, s2) ∧ s1.state = s2.state := by
  obtain ⟨s1, h1, h1'⟩ := checkPieces_spec W hW (init s0) pieces (by simp [init, V])
  obtain ⟨s2, h2, h2'⟩ := check_spec W' hW' (init s0) addr (pieces.flatMap Prod.snd) (by simp [init, V])
  exact ⟨_, s1, s2, h1, h2, by rw [h1', h2']⟩

theorem scanWords_eight (mem : List UInt8) (n i : Nat) (s : State) :
    scanWords 8 mem i n s = Utf8.scanWords mem i n s := by
  induction n generalizing i s with
  | zero => rfl
  | succ n ih => simp only [scanWords, Utf8.scanWords, ih]

/-- The machine of the other theorems is one of these: 8 byte words. -/
theorem linux_is_instance (s : State) (addr : Nat) (bs : List UInt8) : check 8 s addr bs = Utf8.check s addr bs := by
  simp only [check, Utf8.check, scanWords_eight]

/-- Concrete: a surrogate across a 4 byte word boundary is rejected, U+20AC across one accepted. -/
example : ((check 4 (init ⟨7, 99⟩) 1 [65, 65, 65, 65, 65, 0xED, 0xA0, 0x80, 65, 65]).map Prod.fst,
    (check 4 (init ⟨7, 99⟩) 1 [65, 65, 65, 65, 65, 0xE2, 0x82, 0xAC, 65, 65]).map Prod.fst) =
    (some REJECT, some ACCEPT) := by decide +kernel

end Cio.Utf8.AnyMachine
