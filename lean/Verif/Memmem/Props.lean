import Verif.Memmem.Model
/-
Property theorems for substring search (C08).
-/
namespace Cio.Memmem

/-- Specification: the needle stands at position `i` of the haystack. -/
def OccursAt (haystack needle : List UInt8) (i : Nat) : Prop := ∃ pre post, haystack = pre ++ needle ++ post ∧ pre.length = i

/-- Specification of the result: the first occurrence, or nothing if there is none. -/
def IsFirst (haystack needle : List UInt8) : Option Nat → Prop
  | some i => OccursAt haystack needle i ∧ ∀ j < i, ¬ OccursAt haystack needle j
  | none => ∀ j, ¬ OccursAt haystack needle j

theorem occursAt_iff (h n : List UInt8) (i : Nat) : OccursAt h n i ↔ i + n.length ≤ h.length ∧ (h.drop i).take n.length = n := by
  constructor
  · rintro ⟨pre, post, rfl, rfl⟩
    simp
  · rintro ⟨h1, h2⟩
    refine ⟨h.take i, (h.drop i).drop n.length, ?_, by simp; omega⟩
    have h3 : (h.drop i).take n.length ++ (h.drop i).drop n.length = h.drop i := List.take_append_drop _ _
    rw [h2] at h3
    rw [List.append_assoc, h3, List.take_append_drop]

theorem memEq_spec (h nd : List UInt8) (n a b : Nat) (ha : a + n ≤ h.length) (hb : b + n ≤ nd.length) :
    memEq h nd a b n = some (decide ((h.drop a).take n = (nd.drop b).take n)) := by
  induction n generalizing a b with
  | zero => simp [memEq]
  | succ n ih =>
    have h1 : a < h.length := by omega
    have h2 : b < nd.length := by omega
    simp only [memEq, List.getElem?_eq_getElem h1, List.getElem?_eq_getElem h2, ih (a + 1) (b + 1) (by omega) (by omega),
      Option.bind_eq_bind, Option.bind_some, Option.pure_def, Option.some.injEq]
    rw [List.drop_eq_getElem_cons h1, List.drop_eq_getElem_cons h2, List.take_succ_cons, List.take_succ_cons]
    simp only [List.cons.injEq]
    rw [Bool.decide_and]
    congr 1

theorem search_spec (h : List UInt8) (p : UInt8) (tl : List UInt8) (n b : Nat) (hb : b + n = h.length - (p :: tl).length + 1)
    (hl : (p :: tl).length ≤ h.length) (hprev : ∀ j < b, ¬ OccursAt h (p :: tl) j) :
    ∃ r, search h (p :: tl) p n b = some r ∧ IsFirst h (p :: tl) r := by
  induction n generalizing b with
  | zero =>
    refine ⟨none, rfl, ?_⟩
    intro j hj
    have := (occursAt_iff _ _ _).mp hj
    exact hprev j (by omega) hj
  | succ n ih =>
    simp only [List.length_cons] at hb hl
    have hbl : b < h.length := by omega
    have hstep : ¬ OccursAt h (p :: tl) b → ∃ r, search h (p :: tl) p n (b + 1) = some r ∧ IsFirst h (p :: tl) r := by
      intro hno
      apply ih (b + 1) (by simp only [List.length_cons]; omega)
      intro j hj
      by_cases hjb : j = b
      · subst hjb; exact hno
      · exact hprev j (by omega)
    have hmem : memEq h (p :: tl) (b + 1) 1 ((p :: tl).length - 1) =
        some (decide ((h.drop (b + 1)).take tl.length = tl)) := by
      rw [memEq_spec _ _ _ _ _ (by simp only [List.length_cons]; omega) (by simp only [List.length_cons]; omega)]
      simp
    simp only [search, List.getElem?_eq_getElem hbl, hmem, Option.bind_eq_bind, Option.bind_some]
    have hocc : OccursAt h (p :: tl) b ↔ h[b] = p ∧ (h.drop (b + 1)).take tl.length = tl := by
      rw [occursAt_iff, List.drop_eq_getElem_cons hbl, List.length_cons, List.take_succ_cons, List.cons.injEq]
      constructor
      · exact fun x => x.2
      · exact fun x => ⟨by omega, x⟩
    by_cases hx : h[b] = p
    · simp only [hx, beq_self_eq_true, if_true]
      by_cases ht : (h.drop (b + 1)).take tl.length = tl
      · simp only [ht, decide_true, if_true]
        exact ⟨some b, rfl, hocc.mpr ⟨hx, ht⟩, hprev⟩
      · simp only [ht, decide_false, Bool.false_eq_true, if_false]
        exact hstep (fun ho => ht (hocc.mp ho).2)
    · simp only [beq_iff_eq, hx, if_false]
      exact hstep (fun ho => hx (hocc.mp ho).1)

/-- C08: `cio_memmem` never reads outside of its arguments and returns the first occurrence of the needle, or NULL exactly
if there is none. -/
theorem memmem_correct (haystack needle : List UInt8) :
    ∃ r, memmem haystack needle = some r ∧ IsFirst haystack needle r := by
  unfold memmem
  cases needle with
  | nil => exact ⟨some 0, rfl, ⟨[], haystack, rfl, rfl⟩, by simp⟩
  | cons p tl =>
    rw [if_neg (by simp)]
    by_cases hl : haystack.length < (p :: tl).length
    · rw [if_pos hl]
      refine ⟨none, rfl, ?_⟩
      intro j hj
      have := (occursAt_iff _ _ _).mp hj
      omega
    · rw [if_neg hl]
      obtain ⟨r, h1, h2⟩ := search_spec haystack p tl _ 0 (Nat.zero_add _) (by omega) (by simp)
      exact ⟨r, by simpa using h1, h2⟩

/-- The specification determines the result. -/
theorem isFirst_unique (h n : List UInt8) (r s : Option Nat) (hr : IsFirst h n r) (hs : IsFirst h n s) : r = s := by
  cases r with
  | none => cases s with
    | none => rfl
    | some j => exact absurd hs.1 (hr j)
  | some i => cases s with
    | none => exact absurd hr.1 (hs i)
    | some j =>
      congr 1
      rcases Nat.lt_trichotomy i j with hlt | heq | hgt
      · exact absurd hr.1 (hs.2 i hlt)
      · exact heq
      · exact absurd hs.1 (hr.2 j hgt)

/-- Non-vacuity: a needle with a self-overlap, a needle at the very end, an absent one. -/
example : memmem [1, 1, 1, 2] [1, 1, 2] = some (some 1) ∧ memmem [5, 6, 7] [7] = some (some 2) ∧
    memmem [5, 6, 7] [7, 8] = some none := by decide +kernel

end Cio.Memmem
