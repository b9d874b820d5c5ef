import Verif.Utf8.Model
import Verif.Utf8.Spec
/-
Helper lemmas for the UTF-8 checker.
-/
namespace Cio.Utf8

/-- The states the automaton can be in. -/
def V : List UInt8 := [0, 12, 24, 36, 48, 60, 72, 84, 96]

/-- The transition function of the table. -/
def next (st b : UInt8) : UInt8 :=
  UTF8D.getD (256 + st.toNat + (UTF8D.getD b.toNat 0).toNat) 12

def run (st : UInt8) (bs : List UInt8) : UInt8 := bs.foldl next st

theorem forall_byte {P : UInt8 → Prop} (h : ∀ n : Fin 256, P (UInt8.ofNat n.val)) (b : UInt8) : P b := by
  have := h ⟨b.toNat, b.toNat_lt⟩
  simpa using this

theorem table_fact : ∀ st ∈ V, ∀ n : Fin 256,
    (match UTF8D[(UInt8.ofNat n.val).toNat]? with
     | none => false
     | some t => match UTF8D[256 + st.toNat + t.toNat]? with
       | none => false
       | some r => r == next st (UInt8.ofNat n.val) && V.contains r) = true := by decide +kernel

theorem reject_absorb : ∀ n : Fin 256, next 12 (UInt8.ofNat n.val) = 12 := by decide +kernel

theorem next_reject (b : UInt8) : next 12 b = 12 := forall_byte (P := fun b => next 12 b = 12) reject_absorb b

theorem run_reject (bs : List UInt8) : run 12 bs = 12 := by
  induction bs with
  | nil => rfl
  | cons b bs ih => simpa [run, next_reject] using ih

theorem decode_ok (s : State) (h : s.state ∈ V) (b : UInt8) :
    ∃ s', decode s b = some s' ∧ s'.state = next s.state b ∧ s'.state ∈ V := by
  have hf := forall_byte (P := fun b => (match UTF8D[b.toNat]? with
     | none => false
     | some t => match UTF8D[256 + s.state.toNat + t.toNat]? with
       | none => false
       | some r => r == next s.state b && V.contains r) = true) (table_fact s.state h) b
  unfold decode
  cases h1 : UTF8D[b.toNat]? with
  | none => simp [h1] at hf
  | some t =>
    cases h2 : UTF8D[256 + s.state.toNat + t.toNat]? with
    | none => simp [h1, h2] at hf
    | some r =>
      simp only [h1, h2, Bool.and_eq_true, beq_iff_eq] at hf
      refine ⟨_, by simp [h2]; rfl, hf.1, ?_⟩
      simpa using hf.2

theorem next_mem (st : UInt8) (h : st ∈ V) (b : UInt8) : next st b ∈ V := by
  obtain ⟨s', _, h2, h3⟩ := decode_ok ⟨0, st⟩ h b
  simpa [h2] using h3

theorem run_mem (st : UInt8) (h : st ∈ V) (bs : List UInt8) : run st bs ∈ V := by
  induction bs generalizing st with
  | nil => simpa [run]
  | cons b bs ih => exact ih _ (next_mem _ h b)

theorem run_append (st : UInt8) (a b : List UInt8) : run st (a ++ b) = run (run st a) b := by
  simp [run, List.foldl_append]

theorem scan_spec (mem : List UInt8) (n i : Nat) (s : State) (h : s.state ∈ V) (hb : i + n ≤ mem.length) :
    ∃ s' rej, scan mem i n s = some (s', rej) ∧ s'.state = run s.state ((mem.drop i).take n) ∧
      (rej = true → s'.state = 12) := by
  induction n generalizing i s with
  | zero => exact ⟨s, false, rfl, by simp [run], by simp⟩
  | succ n ih =>
    have hi : i < mem.length := by omega
    obtain ⟨s1, hd, hs, hv⟩ := decode_ok s h mem[i]
    have hdrop : (mem.drop i).take (n + 1) = mem[i] :: (mem.drop (i + 1)).take n := by
      rw [List.drop_eq_getElem_cons hi, List.take_succ_cons]
    simp only [scan, List.getElem?_eq_getElem hi, hd, hdrop, Option.bind_eq_bind, Option.bind_some]
    by_cases hr : s1.state = REJECT
    · refine ⟨s1, true, by simp [hr], ?_, fun _ => hr⟩
      simp only [run, List.foldl_cons]
      rw [← hs, hr]
      exact (run_reject _).symm
    · obtain ⟨s2, rej, h1, h2, h3⟩ := ih (i + 1) s1 hv (by omega)
      refine ⟨s2, rej, by simp [hr, h1], ?_, h3⟩
      simp only [run, List.foldl_cons]
      rw [← hs]; exact h2

theorem scanWords_spec (mem : List UInt8) (n i : Nat) (s : State) (h : s.state ∈ V)
    (hb : i + n * 8 ≤ mem.length) :
    ∃ s' rej, scanWords mem i n s = some (s', rej) ∧ s'.state = run s.state ((mem.drop i).take (n * 8)) ∧
      (rej = true → s'.state = 12) := by
  induction n generalizing i s with
  | zero => exact ⟨s, false, rfl, by simp [run], by simp⟩
  | succ n ih =>
    obtain ⟨s1, rej, h1, h2, h3⟩ := scan_spec ((mem.drop i).take 8) 8 0 s h (by simp; omega)
    have hsplit : (mem.drop i).take ((n + 1) * 8) = (mem.drop i).take 8 ++ (mem.drop (i + 8)).take (n * 8) := by
      rw [show (n + 1) * 8 = 8 + n * 8 by omega, List.take_add]; simp
    have h2' : s1.state = run s.state ((mem.drop i).take 8) := by
      rw [h2]; simp [List.take_take]
    have hv : s1.state ∈ V := by rw [h2']; exact run_mem _ h _
    simp only [scanWords, h1, hsplit, run_append, ← h2', Option.bind_eq_bind, Option.bind_some]
    cases rej with
    | true => exact ⟨s1, true, by simp, by rw [h3 rfl, run_reject], fun _ => h3 rfl⟩
    | false =>
      obtain ⟨s2, rej, g1, g2, g3⟩ := ih (i + 8) s1 hv (by omega)
      exact ⟨s2, rej, by simp [g1], g2, g3⟩

theorem check_spec (s : State) (addr : Nat) (bs : List UInt8) (h : s.state ∈ V) :
    ∃ s', check s addr bs = some (run s.state bs, s') ∧ s'.state = run s.state bs := by
  unfold check
  simp only
  generalize hpm : (if bs.length ≥ 8 then
      ((8 - addr % 8) % 8, (bs.length - (8 - addr % 8) % 8) / 8,
        bs.length - (8 - addr % 8) % 8 - (bs.length - (8 - addr % 8) % 8) / 8 * 8)
    else (bs.length, 0, 0)) = pm
  obtain ⟨pre, main, post⟩ := pm
  have hlen : pre + main * 8 + post = bs.length := by
    split at hpm <;> simp only [Prod.mk.injEq] at hpm <;> obtain ⟨rfl, rfl, rfl⟩ := hpm <;> omega
  clear hpm
  have hsplit : bs = bs.take pre ++ ((bs.drop pre).take (main * 8) ++ (bs.drop (bs.length - post)).take post) := by
    rw [show bs.length - post = pre + main * 8 by omega, ← List.drop_drop]
    rw [List.take_of_length_le (i := post) (by simp; omega), List.take_append_drop, List.take_append_drop]
  obtain ⟨s1, r1, a1, b1, c1⟩ := scan_spec bs pre 0 s h (by omega)
  have b1' : s1.state = run s.state (bs.take pre) := by simpa using b1
  have hv1 : s1.state ∈ V := by rw [b1']; exact run_mem _ h _
  obtain ⟨s2, r2, a2, b2, c2⟩ := scanWords_spec bs main pre s1 hv1 (by omega)
  have hv2 : s2.state ∈ V := by rw [b2]; exact run_mem _ hv1 _
  obtain ⟨s3, r3, a3, b3, c3⟩ := scan_spec bs post (bs.length - post) s2 hv2 (by omega)
  have hrun : run s.state bs = run (run s1.state ((bs.drop pre).take (main * 8))) ((bs.drop (bs.length - post)).take post) := by
    conv => lhs; rw [hsplit]
    rw [run_append, run_append, b1']
  simp only [a1, Option.bind_eq_bind, Option.bind_some]
  cases r1 with
  | true =>
    have : run s.state bs = 12 := by rw [hrun, c1 rfl, run_reject, run_reject]
    exact ⟨s1, by simp [REJECT, this], by rw [this, c1 rfl]⟩
  | false =>
    simp only [a2, Option.bind_some]
    cases r2 with
    | true =>
      have : run s.state bs = 12 := by rw [hrun, ← b2, c2 rfl, run_reject]
      exact ⟨s2, by simp [REJECT, this], by rw [this, c2 rfl]⟩
    | false =>
      simp only [a3, Option.bind_some]
      have e : s3.state = run s.state bs := by rw [hrun, ← b2, b3]
      cases r3 with
      | true => exact ⟨s3, by simp [REJECT, ← e, c3 rfl], e⟩
      | false => exact ⟨s3, by simp [e], e⟩

theorem checkPieces_spec (s : State) (ps : List (Nat × List UInt8)) (h : s.state ∈ V) :
    ∃ s', checkPieces s ps = some (run s.state (ps.flatMap Prod.snd), s') ∧
      s'.state = run s.state (ps.flatMap Prod.snd) := by
  induction ps generalizing s with
  | nil => exact ⟨s, rfl, rfl⟩
  | cons p ps ih =>
    obtain ⟨a, bs⟩ := p
    obtain ⟨s1, h1, h2⟩ := check_spec s a bs h
    have hv : s1.state ∈ V := by rw [h2]; exact run_mem _ h _
    cases ps with
    | nil => exact ⟨s1, by simp [checkPieces, h1], by simpa using h2⟩
    | cons q qs =>
      obtain ⟨s2, g1, g2⟩ := ih s1 hv
      refine ⟨s2, ?_, ?_⟩
      · rw [checkPieces]
        simp only [h1, Option.bind_eq_bind, Option.bind_some]
        rw [g1, List.flatMap_cons (x := (a, bs)), run_append, h2]
      · rw [g2, List.flatMap_cons (x := (a, bs)), run_append, h2]

/-! ### The language of the table -/

/-- All transitions into and out of the states, as inequalities on bytes. -/
def nextSpec (st b : UInt8) : UInt8 :=
  let n := b.toNat
  if st = 0 then
    if n < 0x80 then 0
    else if 0xC2 ≤ n ∧ n ≤ 0xDF then 24
    else if n = 0xE0 then 48
    else if n = 0xED then 60
    else if 0xE1 ≤ n ∧ n ≤ 0xEF then 36
    else if n = 0xF0 then 72
    else if 0xF1 ≤ n ∧ n ≤ 0xF3 then 84
    else if n = 0xF4 then 96
    else 12
  else if st = 24 then if 0x80 ≤ n ∧ n ≤ 0xBF then 0 else 12
  else if st = 36 then if 0x80 ≤ n ∧ n ≤ 0xBF then 24 else 12
  else if st = 48 then if 0xA0 ≤ n ∧ n ≤ 0xBF then 24 else 12
  else if st = 60 then if 0x80 ≤ n ∧ n ≤ 0x9F then 24 else 12
  else if st = 72 then if 0x90 ≤ n ∧ n ≤ 0xBF then 36 else 12
  else if st = 84 then if 0x80 ≤ n ∧ n ≤ 0xBF then 36 else 12
  else if st = 96 then if 0x80 ≤ n ∧ n ≤ 0x8F then 36 else 12
  else 12

theorem next_eq_all : ∀ st ∈ V, ∀ n : Fin 256, next st (UInt8.ofNat n.val) = nextSpec st (UInt8.ofNat n.val) := by
  decide +kernel

theorem next_eq (st : UInt8) (h : st ∈ V) (b : UInt8) : next st b = nextSpec st b :=
  forall_byte (P := fun b => next st b = nextSpec st b) (next_eq_all st h) b

theorem byte_ext {a b : UInt8} (h : a.toNat = b.toNat) : a = b := UInt8.toNat_inj.mp h

theorem toNat_ofNat_lt {n : Nat} (h : n < 256) : (UInt8.ofNat n).toNat = n := by
  simp; omega

theorem next_lead1 (a : UInt8) (h : a.toNat < 0x80) : next 0 a = 0 := by
  rw [next_eq 0 (by decide), nextSpec]; simp only [if_true]; rw [if_pos h]

theorem next_lead2 (a : UInt8) (h : 0xC2 ≤ a.toNat) (h' : a.toNat ≤ 0xDF) : next 0 a = 24 := by
  rw [next_eq 0 (by decide), nextSpec]; simp only [if_true]; rw [if_neg (by omega), if_pos ⟨h, h'⟩]

theorem next_cont (st to : UInt8) (hst : st ∈ V) (lo hi : Nat)
    (hs : ∀ b, nextSpec st b = if lo ≤ b.toNat ∧ b.toNat ≤ hi then to else 12)
    (a : UInt8) (h : lo ≤ a.toNat) (h' : a.toNat ≤ hi) : next st a = to := by
  rw [next_eq st hst, hs, if_pos ⟨h, h'⟩]

theorem next_24 (a : UInt8) (h : 0x80 ≤ a.toNat) (h' : a.toNat ≤ 0xBF) : next 24 a = 0 :=
  next_cont 24 0 (by decide) 0x80 0xBF (by intro b; simp [nextSpec]) a h h'

theorem next_36 (a : UInt8) (h : 0x80 ≤ a.toNat) (h' : a.toNat ≤ 0xBF) : next 36 a = 24 :=
  next_cont 36 24 (by decide) 0x80 0xBF (by intro b; simp [nextSpec]) a h h'

theorem next_lead3 (a b : UInt8) (h : 0xE0 ≤ a.toNat) (h' : a.toNat ≤ 0xEF)
    (hb : 0x80 ≤ b.toNat) (hb' : b.toNat ≤ 0xBF)
    (h7 : a.toNat = 0xE0 → 0xA0 ≤ b.toNat) (h8 : a.toNat = 0xED → b.toNat ≤ 0x9F) : next (next 0 a) b = 24 := by
  rw [next_eq 0 (by decide) a, nextSpec]; simp only [if_true]
  rw [if_neg (by omega), if_neg (by omega)]
  split
  · exact next_cont 48 24 (by decide) 0xA0 0xBF (by intro b; simp [nextSpec]) b (by omega) hb'
  split
  · exact next_cont 60 24 (by decide) 0x80 0x9F (by intro b; simp [nextSpec]) b hb (by omega)
  · rw [if_pos (by omega)]
    exact next_36 b hb hb'

theorem next_lead4 (a b : UInt8) (h : 0xF0 ≤ a.toNat) (h' : a.toNat ≤ 0xF4)
    (hb : 0x80 ≤ b.toNat) (hb' : b.toNat ≤ 0xBF)
    (h7 : a.toNat = 0xF0 → 0x90 ≤ b.toNat) (h8 : a.toNat = 0xF4 → b.toNat ≤ 0x8F) : next (next 0 a) b = 36 := by
  rw [next_eq 0 (by decide) a, nextSpec]; simp only [if_true]
  rw [if_neg (by omega), if_neg (by omega), if_neg (by omega), if_neg (by omega), if_neg (by omega)]
  split
  · exact next_cont 72 36 (by decide) 0x90 0xBF (by intro b; simp [nextSpec]) b (by omega) hb'
  split
  · exact next_cont 84 36 (by decide) 0x80 0xBF (by intro b; simp [nextSpec]) b hb hb'
  · rw [if_pos (by omega)]
    exact next_cont 96 36 (by decide) 0x80 0x8F (by intro b; simp [nextSpec]) b hb (by omega)

/-- The encoding of a scalar leads from state 0 back to state 0. -/
theorem run_encode (c : Nat) (h : IsScalar c) : run 0 (encode c) = 0 := by
  obtain ⟨h1, h2⟩ := h
  unfold encode
  split
  · have e1 : (UInt8.ofNat c).toNat = c := toNat_ofNat_lt (by omega)
    exact next_lead1 _ (by omega)
  split
  · have e1 : (UInt8.ofNat (0xC0 + c / 64)).toNat = 0xC0 + c / 64 := toNat_ofNat_lt (by omega)
    have e2 : (UInt8.ofNat (0x80 + c % 64)).toNat = 0x80 + c % 64 := toNat_ofNat_lt (by omega)
    simp only [run, List.foldl_cons, List.foldl_nil]
    rw [next_lead2 _ (by omega) (by omega), next_24 _ (by omega) (by omega)]
  split
  · have e1 : (UInt8.ofNat (0xE0 + c / 4096)).toNat = 0xE0 + c / 4096 := toNat_ofNat_lt (by omega)
    have e2 : (UInt8.ofNat (0x80 + c / 64 % 64)).toNat = 0x80 + c / 64 % 64 := toNat_ofNat_lt (by omega)
    have e3 : (UInt8.ofNat (0x80 + c % 64)).toNat = 0x80 + c % 64 := toNat_ofNat_lt (by omega)
    simp only [run, List.foldl_cons, List.foldl_nil]
    rw [next_lead3 _ _ (by omega) (by omega) (by omega) (by omega) (by omega) (by omega),
      next_24 _ (by omega) (by omega)]
  · have e1 : (UInt8.ofNat (0xF0 + c / 262144)).toNat = 0xF0 + c / 262144 := toNat_ofNat_lt (by omega)
    have e2 : (UInt8.ofNat (0x80 + c / 4096 % 64)).toNat = 0x80 + c / 4096 % 64 := toNat_ofNat_lt (by omega)
    have e3 : (UInt8.ofNat (0x80 + c / 64 % 64)).toNat = 0x80 + c / 64 % 64 := toNat_ofNat_lt (by omega)
    have e4 : (UInt8.ofNat (0x80 + c % 64)).toNat = 0x80 + c % 64 := toNat_ofNat_lt (by omega)
    simp only [run, List.foldl_cons, List.foldl_nil]
    rw [next_lead4 _ _ (by omega) (by omega) (by omega) (by omega) (by omega) (by omega),
      next_36 _ (by omega) (by omega), next_24 _ (by omega) (by omega)]

theorem run_wellFormed (bs : List UInt8) (h : WellFormed bs) : run 0 bs = 0 := by
  obtain ⟨cs, hc, rfl⟩ := h
  induction cs with
  | nil => rfl
  | cons c cs ih =>
    rw [List.flatMap_cons, run_append, run_encode c (hc c (by simp))]
    exact ih (fun c h => hc c (by simp [h]))

theorem wf_cons {c : Nat} {bs : List UInt8} (hc : IsScalar c) (h : WellFormed bs) : WellFormed (encode c ++ bs) := by
  obtain ⟨cs, h1, rfl⟩ := h
  refine ⟨c :: cs, ?_, by simp⟩
  intro d hd
  rcases List.mem_cons.mp hd with rfl | hd
  · exact hc
  · exact h1 d hd

theorem wf_nil : WellFormed [] := ⟨[], by simp, rfl⟩

theorem wf_append {a b : List UInt8} (ha : WellFormed a) (hb : WellFormed b) : WellFormed (a ++ b) := by
  obtain ⟨cs, h1, rfl⟩ := ha
  obtain ⟨ds, h2, rfl⟩ := hb
  refine ⟨cs ++ ds, ?_, by simp⟩
  intro c hc
  rcases List.mem_append.mp hc with h | h
  · exact h1 c h
  · exact h2 c h

/-- From an intermediate state, what is needed to get back to `0`. -/
theorem run24 (bs : List UInt8) (h : run 24 bs = 0) :
    ∃ b rest, bs = b :: rest ∧ 0x80 ≤ b.toNat ∧ b.toNat ≤ 0xBF ∧ run 0 rest = 0 := by
  cases bs with
  | nil => simp [run] at h
  | cons b rest =>
    simp only [run, List.foldl_cons, next_eq 24 (by decide), nextSpec] at h
    refine ⟨b, rest, rfl, ?_⟩
    by_cases hb : 0x80 ≤ b.toNat ∧ b.toNat ≤ 0xBF
    · exact ⟨hb.1, hb.2, by simpa [run, hb] using h⟩
    · simp [hb] at h
      have := run_reject rest
      simp [run] at this
      rw [this] at h; simp at h

theorem run_step {st : UInt8} (hst : st ∈ V) (h0 : st ≠ 0) (lo hi : Nat) (to : UInt8)
    (hs : ∀ b, nextSpec st b = if lo ≤ b.toNat ∧ b.toNat ≤ hi then to else 12)
    (bs : List UInt8) (h : run st bs = 0) :
    ∃ b rest, bs = b :: rest ∧ lo ≤ b.toNat ∧ b.toNat ≤ hi ∧ run to rest = 0 := by
  cases bs with
  | nil => exact absurd h h0
  | cons b rest =>
    simp only [run, List.foldl_cons, next_eq st hst, hs] at h
    refine ⟨b, rest, rfl, ?_⟩
    by_cases hb : lo ≤ b.toNat ∧ b.toNat ≤ hi
    · exact ⟨hb.1, hb.2, by simpa [run, hb] using h⟩
    · simp only [hb, if_false] at h
      have := run_reject rest
      simp only [run] at this
      rw [this] at h; simp at h

theorem encode1 (b : UInt8) (h : b.toNat < 0x80) : IsScalar b.toNat ∧ encode b.toNat = [b] := by
  refine ⟨⟨by omega, by omega⟩, ?_⟩
  simp [encode, h]

theorem encode_two (c : Nat) (h1 : 0x80 ≤ c) (h2 : c < 0x800) :
    encode c = [UInt8.ofNat (0xC0 + c / 64), UInt8.ofNat (0x80 + c % 64)] := by
  unfold encode
  rw [if_neg (Nat.not_lt.mpr h1), if_pos h2]

theorem encode_three (c : Nat) (h1 : 0x800 ≤ c) (h2 : c < 0x10000) :
    encode c = [UInt8.ofNat (0xE0 + c / 4096), UInt8.ofNat (0x80 + c / 64 % 64), UInt8.ofNat (0x80 + c % 64)] := by
  unfold encode
  rw [if_neg (by omega), if_neg (Nat.not_lt.mpr h1), if_pos h2]

theorem encode_four (c : Nat) (h1 : 0x10000 ≤ c) :
    encode c = [UInt8.ofNat (0xF0 + c / 262144), UInt8.ofNat (0x80 + c / 4096 % 64),
     UInt8.ofNat (0x80 + c / 64 % 64), UInt8.ofNat (0x80 + c % 64)] := by
  unfold encode
  rw [if_neg (by omega), if_neg (by omega), if_neg (by omega)]

theorem encode2 (a b : UInt8) (h1 : 0xC2 ≤ a.toNat) (h2 : a.toNat ≤ 0xDF)
    (h3 : 0x80 ≤ b.toNat) (h4 : b.toNat ≤ 0xBF) : ∃ c, IsScalar c ∧ encode c = [a, b] := by
  refine ⟨(a.toNat - 0xC0) * 64 + (b.toNat - 0x80), ⟨by omega, by omega⟩, ?_⟩
  refine (encode_two _ (by omega) (by omega)).trans ?_
  simp only [List.cons.injEq, and_true]
  refine ⟨byte_ext ?_, byte_ext ?_⟩ <;> rw [toNat_ofNat_lt] <;> omega

theorem encode3 (a b d : UInt8) (h1 : 0xE0 ≤ a.toNat) (h2 : a.toNat ≤ 0xEF)
    (h3 : 0x80 ≤ b.toNat) (h4 : b.toNat ≤ 0xBF) (h5 : 0x80 ≤ d.toNat) (h6 : d.toNat ≤ 0xBF)
    (h7 : a.toNat = 0xE0 → 0xA0 ≤ b.toNat) (h8 : a.toNat = 0xED → b.toNat ≤ 0x9F) :
    ∃ c, IsScalar c ∧ encode c = [a, b, d] := by
  refine ⟨(a.toNat - 0xE0) * 4096 + (b.toNat - 0x80) * 64 + (d.toNat - 0x80), ⟨by omega, by omega⟩, ?_⟩
  refine (encode_three _ (by omega) (by omega)).trans ?_
  simp only [List.cons.injEq, and_true]
  refine ⟨byte_ext ?_, byte_ext ?_, byte_ext ?_⟩ <;> rw [toNat_ofNat_lt] <;> omega

theorem encode4 (a b d e : UInt8) (h1 : 0xF0 ≤ a.toNat) (h2 : a.toNat ≤ 0xF4)
    (h3 : 0x80 ≤ b.toNat) (h4 : b.toNat ≤ 0xBF) (h5 : 0x80 ≤ d.toNat) (h6 : d.toNat ≤ 0xBF)
    (h5' : 0x80 ≤ e.toNat) (h6' : e.toNat ≤ 0xBF)
    (h7 : a.toNat = 0xF0 → 0x90 ≤ b.toNat) (h8 : a.toNat = 0xF4 → b.toNat ≤ 0x8F) :
    ∃ c, IsScalar c ∧ encode c = [a, b, d, e] := by
  refine ⟨(a.toNat - 0xF0) * 262144 + (b.toNat - 0x80) * 4096 + (d.toNat - 0x80) * 64 + (e.toNat - 0x80),
    ⟨by omega, by omega⟩, ?_⟩
  refine (encode_four _ (by omega)).trans ?_
  simp only [List.cons.injEq, and_true]
  refine ⟨byte_ext ?_, byte_ext ?_, byte_ext ?_, byte_ext ?_⟩ <;> rw [toNat_ofNat_lt] <;> omega

theorem step36 (bs : List UInt8) (h : run 36 bs = 0) :
    ∃ b rest, bs = b :: rest ∧ 0x80 ≤ b.toNat ∧ b.toNat ≤ 0xbf ∧ run 24 rest = 0 :=
  run_step (st := 36) (by decide) (by decide) 0x80 0xbf 24 (by intro b; simp [nextSpec]) bs h
theorem step48 (bs : List UInt8) (h : run 48 bs = 0) :
    ∃ b rest, bs = b :: rest ∧ 0xa0 ≤ b.toNat ∧ b.toNat ≤ 0xbf ∧ run 24 rest = 0 :=
  run_step (st := 48) (by decide) (by decide) 0xa0 0xbf 24 (by intro b; simp [nextSpec]) bs h
theorem step60 (bs : List UInt8) (h : run 60 bs = 0) :
    ∃ b rest, bs = b :: rest ∧ 0x80 ≤ b.toNat ∧ b.toNat ≤ 0x9f ∧ run 24 rest = 0 :=
  run_step (st := 60) (by decide) (by decide) 0x80 0x9f 24 (by intro b; simp [nextSpec]) bs h
theorem step72 (bs : List UInt8) (h : run 72 bs = 0) :
    ∃ b rest, bs = b :: rest ∧ 0x90 ≤ b.toNat ∧ b.toNat ≤ 0xbf ∧ run 36 rest = 0 :=
  run_step (st := 72) (by decide) (by decide) 0x90 0xbf 36 (by intro b; simp [nextSpec]) bs h
theorem step84 (bs : List UInt8) (h : run 84 bs = 0) :
    ∃ b rest, bs = b :: rest ∧ 0x80 ≤ b.toNat ∧ b.toNat ≤ 0xbf ∧ run 36 rest = 0 :=
  run_step (st := 84) (by decide) (by decide) 0x80 0xbf 36 (by intro b; simp [nextSpec]) bs h
theorem step96 (bs : List UInt8) (h : run 96 bs = 0) :
    ∃ b rest, bs = b :: rest ∧ 0x80 ≤ b.toNat ∧ b.toNat ≤ 0x8f ∧ run 36 rest = 0 :=
  run_step (st := 96) (by decide) (by decide) 0x80 0x8f 36 (by intro b; simp [nextSpec]) bs h

theorem wf3 {a b d : UInt8} {rest : List UInt8} (w : WellFormed rest) (h1 : 0xE0 ≤ a.toNat) (h2 : a.toNat ≤ 0xEF)
    (h3 : 0x80 ≤ b.toNat) (h4 : b.toNat ≤ 0xBF) (h5 : 0x80 ≤ d.toNat) (h6 : d.toNat ≤ 0xBF)
    (h7 : a.toNat = 0xE0 → 0xA0 ≤ b.toNat) (h8 : a.toNat = 0xED → b.toNat ≤ 0x9F) :
    WellFormed (a :: b :: d :: rest) := by
  obtain ⟨c, hc, he⟩ := encode3 a b d h1 h2 h3 h4 h5 h6 h7 h8
  have := wf_cons hc w
  rw [he] at this; simpa using this

theorem wf4 {a b d e : UInt8} {rest : List UInt8} (w : WellFormed rest) (h1 : 0xF0 ≤ a.toNat) (h2 : a.toNat ≤ 0xF4)
    (h3 : 0x80 ≤ b.toNat) (h4 : b.toNat ≤ 0xBF) (h5 : 0x80 ≤ d.toNat) (h6 : d.toNat ≤ 0xBF)
    (h5' : 0x80 ≤ e.toNat) (h6' : e.toNat ≤ 0xBF)
    (h7 : a.toNat = 0xF0 → 0x90 ≤ b.toNat) (h8 : a.toNat = 0xF4 → b.toNat ≤ 0x8F) :
    WellFormed (a :: b :: d :: e :: rest) := by
  obtain ⟨c, hc, he⟩ := encode4 a b d e h1 h2 h3 h4 h5 h6 h5' h6' h7 h8
  have := wf_cons hc w
  rw [he] at this; simpa using this

theorem wellFormed_of_run (n : Nat) (bs : List UInt8) (hn : bs.length ≤ n) (h : run 0 bs = 0) : WellFormed bs := by
  induction n generalizing bs with
  | zero => cases bs with
    | nil => exact wf_nil
    | cons _ _ => simp at hn
  | succ n ih =>
    cases bs with
    | nil => exact wf_nil
    | cons b rest =>
      simp only [List.length_cons] at hn
      have hr : run (nextSpec 0 b) rest = 0 := by
        rw [← next_eq 0 (by decide)]; exact h
      have hb := b.toNat_lt
      simp only [nextSpec, if_true] at hr
      have rej : ∀ r, run 12 r ≠ 0 := by intro r; rw [run_reject]; decide
      split at hr
      · rename_i k
        obtain ⟨hc, he⟩ := encode1 b k
        have := wf_cons hc (ih rest (by omega) hr)
        rw [he] at this; simpa using this
      split at hr
      · rename_i k
        obtain ⟨b1, r1, rfl, l1, u1, h1⟩ := run24 rest hr
        simp only [List.length_cons] at hn
        obtain ⟨c, hc, he⟩ := encode2 b b1 k.1 k.2 l1 u1
        have := wf_cons hc (ih r1 (by omega) h1)
        rw [he] at this; simpa using this
      split at hr
      · obtain ⟨b1, r1, rfl, l1, u1, h1⟩ := step48 rest hr
        obtain ⟨b2, r2, rfl, l2, u2, h2⟩ := run24 r1 h1
        simp only [List.length_cons] at hn
        exact wf3 (ih r2 (by omega) h2) (by omega) (by omega) (by omega) (by omega) l2 u2 (by omega) (by omega)
      split at hr
      · obtain ⟨b1, r1, rfl, l1, u1, h1⟩ := step60 rest hr
        obtain ⟨b2, r2, rfl, l2, u2, h2⟩ := run24 r1 h1
        simp only [List.length_cons] at hn
        exact wf3 (ih r2 (by omega) h2) (by omega) (by omega) (by omega) (by omega) l2 u2 (by omega) (by omega)
      split at hr
      · obtain ⟨b1, r1, rfl, l1, u1, h1⟩ := step36 rest hr
        obtain ⟨b2, r2, rfl, l2, u2, h2⟩ := run24 r1 h1
        simp only [List.length_cons] at hn
        exact wf3 (ih r2 (by omega) h2) (by omega) (by omega) (by omega) (by omega) l2 u2 (by omega) (by omega)
      split at hr
      · obtain ⟨b1, r1, rfl, l1, u1, h1⟩ := step72 rest hr
        obtain ⟨b2, r2, rfl, l2, u2, h2⟩ := step36 r1 h1
        obtain ⟨b3, r3, rfl, l3, u3, h3⟩ := run24 r2 h2
        simp only [List.length_cons] at hn
        exact wf4 (ih r3 (by omega) h3) (by omega) (by omega) (by omega) (by omega) l2 u2 l3 u3 (by omega) (by omega)
      split at hr
      · obtain ⟨b1, r1, rfl, l1, u1, h1⟩ := step84 rest hr
        obtain ⟨b2, r2, rfl, l2, u2, h2⟩ := step36 r1 h1
        obtain ⟨b3, r3, rfl, l3, u3, h3⟩ := run24 r2 h2
        simp only [List.length_cons] at hn
        exact wf4 (ih r3 (by omega) h3) (by omega) (by omega) (by omega) (by omega) l2 u2 l3 u3 (by omega) (by omega)
      split at hr
      · obtain ⟨b1, r1, rfl, l1, u1, h1⟩ := step96 rest hr
        obtain ⟨b2, r2, rfl, l2, u2, h2⟩ := step36 r1 h1
        obtain ⟨b3, r3, rfl, l3, u3, h3⟩ := run24 r2 h2
        simp only [List.length_cons] at hn
        exact wf4 (ih r3 (by omega) h3) (by omega) (by omega) (by omega) (by omega) l2 u2 l3 u3 (by omega) (by omega)
      · exact absurd hr (rej _)

theorem run_zero_iff (bs : List UInt8) : run 0 bs = 0 ↔ WellFormed bs :=
  ⟨wellFormed_of_run _ bs (Nat.le_refl _), run_wellFormed bs⟩

/-- From every state other than REJECT the automaton can get back to ACCEPT. -/
theorem recover (st : UInt8) (h : st ∈ V) (hr : st ≠ 12) : ∃ suf, run st suf = 0 := by
  simp only [V, List.mem_cons, List.not_mem_nil, or_false] at h
  rcases h with rfl | rfl | rfl | rfl | rfl | rfl | rfl | rfl | rfl
  · exact ⟨[], rfl⟩
  · exact absurd rfl hr
  · exact ⟨[0x80], by decide +kernel⟩
  · exact ⟨[0x80, 0x80], by decide +kernel⟩
  · exact ⟨[0xA0, 0x80], by decide +kernel⟩
  · exact ⟨[0x80, 0x80], by decide +kernel⟩
  · exact ⟨[0x90, 0x80, 0x80], by decide +kernel⟩
  · exact ⟨[0x80, 0x80, 0x80], by decide +kernel⟩
  · exact ⟨[0x80, 0x80, 0x80], by decide +kernel⟩

theorem run_reject_iff (bs : List UInt8) : run 0 bs = 12 ↔ ∀ suf, ¬ WellFormed (bs ++ suf) := by
  constructor
  · intro h suf hw
    have := run_wellFormed _ hw
    rw [run_append, h, run_reject] at this
    exact absurd this (by decide)
  · intro h
    apply Classical.byContradiction
    intro hne
    obtain ⟨suf, hs⟩ := recover _ (run_mem 0 (by decide) bs) hne
    exact h suf ((run_zero_iff _).mp (by rw [run_append, hs]))

end Cio.Utf8
