import Verif.Utf8.Lemmas
/-
Property theorems for the UTF-8 checker (C01, C02).
-/
namespace Cio.Utf8

/-- C01: on a freshly initialised checker, `cio_check_utf8` never leaves its table (the result is
`some`), returns ACCEPT exactly for well-formed UTF-8 and REJECT exactly for strings that no continuation can
make well-formed.  For every string, address and previous content of the state structure. -/
theorem check_utf8_correct (s0 : State) (addr : Nat) (bs : List UInt8) :
    ∃ r s', check (init s0) addr bs = some (r, s') ∧
      (r = ACCEPT ↔ WellFormed bs) ∧
      (r = REJECT ↔ ∀ suffix, ¬ WellFormed (bs ++ suffix)) := by
  obtain ⟨s', h, _⟩ := check_spec (init s0) addr bs (by simp [init, V])
  exact ⟨_, s', h, run_zero_iff bs, run_reject_iff bs⟩

/-- C02: the verdict on a string fed in any number of calls, at any addresses, is the verdict of one
call with the whole string at any address. -/
theorem check_utf8_chunks (s0 : State) (addr : Nat) (pieces : List (Nat × List UInt8)) :
    ∃ r s1 s2, checkPieces (init s0) pieces = some (r, s1) ∧
      check (init s0) addr (pieces.flatMap Prod.snd) = some (r, s2) ∧ s1.state = s2.state := by
  obtain ⟨s1, h1, h1'⟩ := checkPieces_spec (init s0) pieces (by simp [init, V])
  obtain ⟨s2, h2, h2'⟩ := check_spec (init s0) addr (pieces.flatMap Prod.snd) (by simp [init, V])
  exact ⟨_, s1, s2, h1, h2, by rw [h1', h2']⟩

/-- C02: a rejected stream stays rejected: whatever is fed after a REJECT verdict is rejected too, unless
nothing was fed at all. -/
theorem check_utf8_reject_sticky (s0 : State) (before : List (Nat × List UInt8)) (s1 : State)
    (h : checkPieces (init s0) before = some (REJECT, s1)) (after : List (Nat × List UInt8)) :
    ∃ s2, checkPieces s1 after = some (REJECT, s2) := by
  obtain ⟨s1', h1, h1'⟩ := checkPieces_spec (init s0) before (by simp [init, V])
  rw [h1] at h
  simp only [Option.some.injEq, Prod.mk.injEq] at h
  obtain ⟨hr, rfl⟩ := h
  have hst : s1'.state = 12 := by rw [h1', hr]; rfl
  obtain ⟨s2, h2, _⟩ := checkPieces_spec s1' after (by rw [hst]; decide)
  rw [hst, run_reject] at h2
  exact ⟨s2, h2⟩

/-- The verdict of a sequence of calls in terms of the specification. -/
theorem check_utf8_chunks_correct (s0 : State) (pieces : List (Nat × List UInt8)) :
    ∃ r s1, checkPieces (init s0) pieces = some (r, s1) ∧
      (r = ACCEPT ↔ WellFormed (pieces.flatMap Prod.snd)) ∧
      (r = REJECT ↔ ∀ suffix, ¬ WellFormed (pieces.flatMap Prod.snd ++ suffix)) := by
  obtain ⟨s1, h1, _⟩ := checkPieces_spec (init s0) pieces (by simp [init, V])
  exact ⟨_, s1, h1, run_zero_iff _, run_reject_iff _⟩

/-- Non-vacuity: U+20AC U+10348 cut inside both characters, at odd addresses, is accepted ... -/
example : (checkPieces (init ⟨7, 99⟩) [(3, [0xE2, 0x82]), (6, [0xAC, 0xF0, 0x90]), (1, [0x8D, 0x88])]).map
    Prod.fst = some ACCEPT := by decide +kernel
/-- ... an encoded surrogate in the aligned middle of a long string is rejected ... -/
example : (check (init ⟨0, 0⟩) 5 [65, 65, 65, 65, 65, 0xED, 0xA0, 0x80, 65, 65, 65, 65, 65, 65, 65, 65]).map
    Prod.fst = some REJECT := by decide +kernel
/-- ... a state that the hypothesis of `check_utf8_reject_sticky` describes exists ... -/
example : ∃ s1, checkPieces (init ⟨0, 0⟩) [(0, [0xC0])] = some (REJECT, s1) := ⟨⟨0, 12⟩, by decide +kernel⟩
/-- ... and the specification has well-formed members of all four lengths. -/
example : WellFormed [0x41, 0xC3, 0xA4, 0xE2, 0x82, 0xAC, 0xF0, 0x90, 0x8D, 0x88] :=
  ⟨[0x41, 0xE4, 0x20AC, 0x10348], by simp [IsScalar], by decide⟩

end Cio.Utf8
