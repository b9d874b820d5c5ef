import Verif.HttpTcp.Spec
/-
The reader of the specification does not depend on where the bytes it has got so far end.
-/
namespace Cio.HttpTcp
open HttpResponse.Rfc7230 (Bytes Response read number cutLine cutHeader statusCode fields)

theorem cutLine_append {w l r : Bytes} (t : Bytes) (h : cutLine w = some (l, r)) : cutLine (w ++ t) = some (l, r ++ t) := by
  induction w generalizing l r with
  | nil => cases h
  | cons a w ih =>
    cases w with
    | nil => cases h
    | cons b w =>
      rw [cutLine] at h
      rw [List.cons_append, List.cons_append, cutLine]
      by_cases hc : a = 13 ∧ b = 10
      · rw [if_pos hc] at h ⊢
        simp only [Option.some.injEq, Prod.mk.injEq] at h
        rw [← h.1, ← h.2]
      · rw [if_neg hc] at h ⊢
        cases hq : cutLine (b :: w) with
        | none => rw [hq] at h; cases h
        | some x =>
          obtain ⟨l', r'⟩ := x
          rw [hq] at h
          simp only [Option.map_some, Option.some.injEq, Prod.mk.injEq] at h
          have := ih hq
          rw [List.cons_append] at this
          rw [this, ← h.1, ← h.2]
          rfl

theorem cutLine_length {w l r : Bytes} (h : cutLine w = some (l, r)) : r.length + 2 ≤ w.length := by
  induction w generalizing l r with
  | nil => cases h
  | cons a w ih =>
    cases w with
    | nil => cases h
    | cons b w =>
      rw [cutLine] at h
      by_cases hc : a = 13 ∧ b = 10
      · rw [if_pos hc] at h
        simp only [Option.some.injEq, Prod.mk.injEq] at h
        rw [← h.2, List.length_cons, List.length_cons]
        omega
      · rw [if_neg hc] at h
        cases hq : cutLine (b :: w) with
        | none => rw [hq] at h; cases h
        | some x =>
          obtain ⟨l', r'⟩ := x
          rw [hq] at h
          simp only [Option.map_some, Option.some.injEq, Prod.mk.injEq] at h
          have := ih hq
          rw [← h.2, List.length_cons]
          omega

theorem cutHeader_append {k : Nat} {w b : Bytes} {ls : List Bytes} (t : Bytes) {k' : Nat} (hk : k ≤ k') (h : cutHeader k w = some (ls, b)) :
    cutHeader k' (w ++ t) = some (ls, b ++ t) := by
  induction k generalizing w ls b k' with
  | zero => cases h
  | succ k ih =>
    obtain ⟨k', rfl⟩ : ∃ j, k' = j + 1 := ⟨k' - 1, by omega⟩
    rw [cutHeader] at h ⊢
    cases hq : cutLine w with
    | none => rw [hq] at h; cases h
    | some x =>
      obtain ⟨l, rest⟩ := x
      rw [hq] at h
      rw [cutLine_append t hq]
      cases l with
      | nil =>
        simp only [Option.some.injEq, Prod.mk.injEq] at h ⊢
        exact ⟨h.1, by rw [h.2]⟩
      | cons a l =>
        simp only at h ⊢
        cases hr : cutHeader k rest with
        | none => rw [hr] at h; cases h
        | some y =>
          obtain ⟨ls', b'⟩ := y
          rw [hr] at h
          simp only [Option.map_some, Option.some.injEq, Prod.mk.injEq] at h
          rw [ih (by omega) hr, ← h.1, ← h.2]
          rfl

theorem cutHeader_length {k : Nat} {w b : Bytes} {ls : List Bytes} (h : cutHeader k w = some (ls, b)) : b.length + 2 ≤ w.length := by
  induction k generalizing w ls b with
  | zero => cases h
  | succ k ih =>
    rw [cutHeader] at h
    cases hq : cutLine w with
    | none => rw [hq] at h; cases h
    | some x =>
      obtain ⟨l, rest⟩ := x
      rw [hq] at h
      have h1 := cutLine_length hq
      cases l with
      | nil =>
        simp only [Option.some.injEq, Prod.mk.injEq] at h
        rw [← h.2]
        exact h1
      | cons a l =>
        simp only at h
        cases hr : cutHeader k rest with
        | none => rw [hr] at h; cases h
        | some y =>
          obtain ⟨ls', b'⟩ := y
          rw [hr] at h
          simp only [Option.map_some, Option.some.injEq, Prod.mk.injEq] at h
          have := ih hr
          rw [← h.2]
          omega

/-- What `read` needs. -/
theorem read_iff {w : Bytes} {r : Response} : read w = some r ↔
    ∃ start ls, cutHeader (w.length + 1) w = some (start :: ls, r.body) ∧ statusCode start = some r.status ∧ fields ls = some r.fields := by
  unfold HttpResponse.Rfc7230.read
  cases hq : cutHeader (w.length + 1) w with
  | none => exact ⟨fun h => (by cases h), fun ⟨_, _, h, _⟩ => (by cases h)⟩
  | some x =>
    obtain ⟨ls, b⟩ := x
    cases ls with
    | nil => exact ⟨fun h => (by cases h), fun ⟨_, _, h, _⟩ => (by cases h)⟩
    | cons start ls =>
      cases hs : statusCode start with
      | none =>
        refine ⟨fun h => ?_, fun ⟨_, _, h, g, _⟩ => ?_⟩
        · simp only [hs] at h; cases h
        · simp only [Option.some.injEq, Prod.mk.injEq, List.cons.injEq] at h; rw [← h.1.1, hs] at g; cases g
      | some st =>
        cases hf : fields ls with
        | none =>
          refine ⟨fun h => ?_, fun ⟨_, _, h, _, g⟩ => ?_⟩
          · simp only [hs, hf] at h; cases h
          · simp only [Option.some.injEq, Prod.mk.injEq, List.cons.injEq] at h; rw [← h.1.2, hf] at g; cases g
        | some fs =>
          simp only [hs, hf, Option.some.injEq]
          refine ⟨fun h => ?_, fun ⟨s', ls', h, g1, g2⟩ => ?_⟩
          · subst h; exact ⟨start, ls, rfl, hs, hf⟩
          · simp only [Prod.mk.injEq, List.cons.injEq] at h
            obtain ⟨⟨rfl, rfl⟩, h3⟩ := h
            rw [hs, Option.some.injEq] at g1
            rw [hf, Option.some.injEq] at g2
            cases r
            simp only at g1 g2 h3
            rw [g1, g2, h3]

theorem read_append {w : Bytes} {r : Response} (t : Bytes) (h : read w = some r) : read (w ++ t) = some { r with body := r.body ++ t } := by
  obtain ⟨start, ls, h1, h2, h3⟩ := read_iff.1 h
  exact read_iff.2 ⟨start, ls, cutHeader_append t (by rw [List.length_append]; omega) h1, h2, h3⟩

theorem readOne_iff {w rest : Bytes} {r : Response} : readOne w = some (r, rest) ↔
    ∃ x n, read w = some x ∧ bodyLength x.status x.fields = some n ∧ n ≤ x.body.length ∧ r = { x with body := x.body.take n } ∧ rest = x.body.drop n := by
  unfold readOne
  constructor
  · intro h
    cases hx : read w with
    | none => rw [hx] at h; cases h
    | some x =>
      rw [hx, Option.bind_some] at h
      cases hn : bodyLength x.status x.fields with
      | none => rw [hn] at h; cases h
      | some n =>
        rw [hn, Option.bind_some] at h
        by_cases hl : n ≤ x.body.length
        · rw [if_pos hl, Option.some.injEq, Prod.mk.injEq] at h
          exact ⟨x, n, rfl, hn, hl, h.1.symm, h.2.symm⟩
        · rw [if_neg hl] at h; cases h
  · rintro ⟨x, n, h1, h2, h3, rfl, rfl⟩
    rw [h1, Option.bind_some, h2, Option.bind_some, if_pos h3]

theorem readOne_append {w rest : Bytes} {r : Response} (t : Bytes) (h : readOne w = some (r, rest)) : readOne (w ++ t) = some (r, rest ++ t) := by
  obtain ⟨x, n, h1, h2, h3, rfl, rfl⟩ := readOne_iff.1 h
  refine readOne_iff.2 ⟨_, n, read_append t h1, h2, ?_, ?_, ?_⟩
  · rw [List.length_append]; omega
  · show Response.mk _ _ _ = Response.mk _ _ _; rw [List.take_append_of_le_length h3]
  · rw [List.drop_append_of_le_length h3]

theorem readOne_length {w rest : Bytes} {r : Response} (h : readOne w = some (r, rest)) : rest.length < w.length := by
  obtain ⟨x, n, h1, h2, h3, rfl, rfl⟩ := readOne_iff.1 h
  obtain ⟨start, ls, g1, -, -⟩ := read_iff.1 h1
  have := cutHeader_length g1
  rw [List.length_drop]
  omega

theorem readOne_nil : readOne [] = none := by
  cases h : readOne [] with
  | none => rfl
  | some x => exact absurd (readOne_length h) (Nat.not_lt_zero _)

/-- The bound on the number of responses does not matter. -/
theorem readAll_enough {k k' : Nat} {w : Bytes} (h : w.length ≤ k) (h' : w.length ≤ k') : readAll k w = readAll k' w := by
  induction k generalizing w k' with
  | zero =>
    have : w = [] := List.length_eq_zero_iff.1 (by omega)
    subst this
    cases k' with
    | zero => rfl
    | succ k' => rw [readAll, readAll, readOne_nil]
  | succ k ih =>
    cases k' with
    | zero =>
      have : w = [] := List.length_eq_zero_iff.1 (by omega)
      subst this
      rw [readAll, readAll, readOne_nil]
    | succ k' =>
      rw [readAll, readAll]
      cases hq : readOne w with
      | none => rfl
      | some x =>
        obtain ⟨r, rest⟩ := x
        have := readOne_length hq
        simp only
        rw [ih (w := rest) (k' := k') (by omega) (by omega)]

theorem responses_none {w : Bytes} (h : readOne w = none) : responses w = ([], w) := by
  unfold responses
  cases w with
  | nil => rfl
  | cons a w => rw [List.length_cons, readAll, h]

theorem responses_cons {w rest : Bytes} {r : Response} (h : readOne w = some (r, rest)) : responses w = (r :: (responses rest).1, (responses rest).2) := by
  unfold responses
  have hl := readOne_length h
  obtain ⟨k, hk⟩ : ∃ k, w.length = k + 1 := ⟨w.length - 1, by omega⟩
  rw [hk, readAll, h]
  simp only
  rw [readAll_enough (k := k) (k' := rest.length) (by omega) (Nat.le_refl _)]

/-- `w` is exactly the response `r`. -/
def Is (w : Bytes) (r : Response) : Prop := readOne w = some (r, [])

/-- One message after the other. -/
inductive AllAre : List Bytes → List Response → Prop
  | nil : AllAre [] []
  | cons {w : Bytes} {r : Response} {ws : List Bytes} {rs : List Response} (h : Is w r) (t : AllAre ws rs) : AllAre (w :: ws) (r :: rs)

/-- A beginning of a message that is not all of it is no message. -/
theorem no_part {w q : Bytes} {r : Response} (h : Is w r) (hp : q <+: w) (hne : q ≠ w) : readOne q = none := by
  obtain ⟨t, rfl⟩ := hp
  cases hq : readOne q with
  | none => rfl
  | some x =>
    obtain ⟨r', rest⟩ := x
    have := readOne_append t hq
    rw [show readOne (q ++ t) = some (r, []) from h, Option.some.injEq, Prod.mk.injEq] at this
    have ht : t = [] := (List.append_eq_nil_iff.1 this.2.symm).2
    subst ht
    exact absurd (List.append_nil q).symm hne

/-- Complete messages are all read; what follows, if it is the beginning of another message, is left. -/
theorem responses_complete {ws : List Bytes} {rs : List Response} (h : AllAre ws rs) (q : Bytes) (hq : readOne q = none) : responses (ws.flatten ++ q) = (rs, q) := by
  induction h with
  | nil => rw [List.flatten_nil, List.nil_append]; exact responses_none hq
  | cons h t ih =>
    rename_i w r ws rs
    rw [List.flatten_cons, List.append_assoc, responses_cons (r := r) (rest := ws.flatten ++ q) (by rw [readOne_append _ h, List.nil_append]), ih]

/-- Whatever part of the messages has arrived, a beginning of the responses is read, all that have arrived completely. -/
theorem responses_prefix {ws : List Bytes} {rs : List Response} (h : AllAre ws rs) (p : Bytes) (hp : p <+: ws.flatten) :
    ∃ k, (responses p).1 = rs.take k ∧ p = (ws.take k).flatten ++ (responses p).2 ∧ (k = ws.length ∨ ∃ w, ws[k]? = some w ∧ (responses p).2 <+: w ∧ (responses p).2 ≠ w) := by
  induction h generalizing p with
  | nil =>
    have : p = [] := List.prefix_nil.1 (by simpa using hp)
    subst this
    exact ⟨0, rfl, rfl, Or.inl rfl⟩
  | cons h t ih =>
    rename_i w r ws rs
    rw [List.flatten_cons] at hp
    by_cases hw : w <+: p
    · obtain ⟨p', rfl⟩ := hw
      obtain ⟨k, k1, k2, k3⟩ := ih p' ((List.prefix_append_right_inj w).1 hp)
      have e : responses (w ++ p') = (r :: (responses p').1, (responses p').2) := responses_cons (by rw [readOne_append _ h, List.nil_append])
      refine ⟨k + 1, ?_, ?_, ?_⟩
      · rw [e, k1]; rfl
      · rw [e, List.take_succ_cons, List.flatten_cons, List.append_assoc, ← k2]
      · rw [e]
        rcases k3 with k3 | ⟨w', g1, g2, g3⟩
        · exact Or.inl (by rw [List.length_cons, k3])
        · exact Or.inr ⟨w', (by rw [List.getElem?_cons_succ]; exact g1), g2, g3⟩
    · have hpw : p <+: w := by
        rcases List.prefix_or_prefix_of_prefix hp (List.prefix_append w ws.flatten) with g | g
        · exact g
        · exact absurd g hw
      have hne : p ≠ w := fun g => hw (by rw [g]; exact List.prefix_rfl)
      have e := responses_none (no_part h hpw hne)
      exact ⟨0, (by rw [e]; rfl), (by rw [e]; rfl), Or.inr ⟨w, rfl, (by rw [e]; exact hpw), (by rw [e]; exact hne)⟩⟩

end Cio.HttpTcp
