import Verif.StreamSocket.Model
/-
Lemmas about the parts: what one step of the read half of the stream, and one move of the socket, changes.
-/
namespace Cio.StreamSocket
open BufferedRead (UAct Handler World Job Call)

/-! ### The read half of the stream -/

/-- What user actions never change, and what they do not change within a handler. -/
structure Kept (w w' : World) : Prop where
  waiting : w'.waiting = w.waiting
  received : w'.received = w.received
  errs : w'.transportErrs = w.transportErrs
  calls : w'.calls = w.calls
  cb : w'.callbackIsRunning = w.callbackIsRunning
  closed : w.callbackIsRunning ≠ 0 → w'.closed = w.closed

theorem Kept.refl (w : World) : Kept w w := ⟨rfl, rfl, rfl, rfl, rfl, fun _ => rfl⟩

theorem Kept.trans {a b c : World} (h : Kept a b) (g : Kept b c) : Kept a c :=
  ⟨g.waiting.trans h.waiting, g.received.trans h.received, g.errs.trans h.errs, g.calls.trans h.calls, g.cb.trans h.cb,
    fun hc => (g.closed (by rw [h.cb]; exact hc)).trans (h.closed hc)⟩

theorem read_kept (w : World) (j : Job) : Kept w (BufferedRead.read w j) := by
  unfold BufferedRead.read
  split
  · split
    · exact ⟨rfl, rfl, rfl, rfl, rfl, fun _ => rfl⟩
    · exact ⟨rfl, rfl, rfl, rfl, rfl, fun _ => rfl⟩
  · exact ⟨rfl, rfl, rfl, rfl, rfl, fun _ => rfl⟩

theorem act_kept (w : World) (a : UAct) : Kept w (BufferedRead.act w a) := by
  cases a with
  | consume n => exact ⟨rfl, rfl, rfl, rfl, rfl, fun _ => rfl⟩
  | read j => exact read_kept w j
  | close =>
    unfold BufferedRead.act BufferedRead.close
    dsimp only
    split
    · next h => exact ⟨rfl, rfl, rfl, rfl, rfl, fun hc => absurd h hc⟩
    · exact ⟨rfl, rfl, rfl, rfl, rfl, fun _ => rfl⟩

theorem acts_kept (as : List UAct) (w : World) : Kept w (as.foldl BufferedRead.act w) := by
  induction as generalizing w with
  | nil => exact Kept.refl w
  | cons a as ih => exact (act_kept w a).trans (ih _)

/-- A call of the read handler. -/
theorem call_facts (H : Handler) (w : World) (j : Job) (e : Err) (n : Nat) {w' : World} {b : BufferedRead.BsState}
    (h : BufferedRead.callHandler H w j e n = (w', b)) :
    w'.waiting = w.waiting ∧ w'.received = w.received ∧ w'.transportErrs = w.transportErrs ∧ b ≠ .again ∧
      (w.closed = true → w'.closed = true) ∧ (b = .open → w'.closed = w.closed) ∧
      ∃ c, w'.calls = w.calls ++ [c] ∧ c.err = e ∧ c.received = w.received := by
  unfold BufferedRead.callHandler at h
  dsimp only at h
  generalize hw0 : ({ w with job := none, callbackIsRunning := w.callbackIsRunning + 1, calls := w.calls ++ [⟨j, e, n, w.rb.unread, w.consumed, w.received, w.rb.fetch⟩] } : World) = w0 at h
  have k := acts_kept (H w0) w0
  revert h k
  generalize (H w0).foldl BufferedRead.act w0 = w1
  intro h k
  subst hw0
  have k1 := k.waiting
  have k2 := k.received
  have k3 := k.errs
  have k4 := k.calls
  have k6 := k.closed (by simp)
  dsimp only at k1 k2 k3 k4 k6
  split at h <;> cases h
  · exact ⟨k1, k2, k3, (fun h => nomatch h), fun _ => rfl, (fun h => nomatch h), _, k4, rfl, rfl⟩
  · exact ⟨k1, k2, k3, (fun h => nomatch h), fun hc => k6.trans hc, fun _ => k6, _, k4, rfl, rfl⟩

/-- `runJob` calls the handler or does nothing. -/
def RunFacts (w w' : World) (b : BufferedRead.BsState) : Prop :=
  w'.waiting = w.waiting ∧ w'.received = w.received ∧ w'.transportErrs = w.transportErrs ∧
    (w.closed = true → w'.closed = true) ∧ (b = .open → w'.closed = w.closed) ∧ (b = .again → w' = w) ∧
    ((∃ c, w'.calls = w.calls ++ [c] ∧ c.err = w.lastError ∧ c.received = w.received) ∨ w'.calls = w.calls)

theorem runJob_facts (H : Handler) (w : World) (j : Job) (hub : (BufferedRead.runJob H w j).1.ub = false) {w' : World} {b : BufferedRead.BsState}
    (h : BufferedRead.runJob H w j = (w', b)) : RunFacts w w' b := by
  have one : ∀ e n, e = w.lastError → BufferedRead.callHandler H w j e n = (w', b) → RunFacts w w' b := by
    intro e n he hc
    obtain ⟨a1, a2, a3, a4, a5, a6, c, a7, a8, a9⟩ := call_facts H w j e n hc
    exact ⟨a1, a2, a3, a5, a6, fun h => absurd h a4, Or.inl ⟨c, a7, a8.trans he, a9⟩⟩
  have two : (w, BufferedRead.BsState.again) = (w', b) → RunFacts w w' b := by
    intro hc
    cases hc
    exact ⟨rfl, rfl, rfl, id, fun _ => rfl, fun _ => rfl, Or.inr rfl⟩
  unfold BufferedRead.runJob at h hub
  by_cases hl : w.lastError ≠ SUCCESS
  · rw [if_pos hl] at h
    exact one _ _ rfl h
  · rw [if_neg hl] at h hub
    have hl : w.lastError = SUCCESS := Classical.byContradiction hl
    cases j with
    | atMost n =>
      dsimp only at h
      split at h
      · exact one _ _ hl.symm h
      · exact two h
    | «until» d =>
      dsimp only at h hub
      split at h
      · next hm => rw [hm] at hub; cases hub
      · exact two h
      · exact one _ _ hl.symm h
    | atLeast n =>
      dsimp only at h
      split at h
      · exact one _ _ hl.symm h
      · exact two h

/-- One round of `run_read`, when `read_some` accepts. -/
theorem loop_facts (sz : Nat) (hpos : 0 < sz) (H : Handler) (w w' : World) (hi : BufferedRead.Inv sz w)
    (h : BufferedRead.step H w (.loop SUCCESS) = some w') (hm : w'.misuse = false) :
    w.looping = true ∧ w.waiting = false ∧ w'.received = w.received ∧ w'.transportErrs = w.transportErrs ∧
      (w.closed = true → w'.closed = true) ∧ (w'.waiting = true → w'.closed = w.closed ∧ w'.looping = false) ∧ (w'.looping = true → w'.closed = w.closed) ∧
      ((∃ c, w'.calls = w.calls ++ [c] ∧ (c.err = w.lastError ∨ c.err = MESSAGE_TOO_LONG) ∧ c.received = w.received) ∨ w'.calls = w.calls) := by
  have hi' := BufferedRead.step_inv sz hpos H w w' (.loop SUCCESS) hi h hm
  unfold BufferedRead.step at h
  dsimp only at h
  by_cases hl : w.looping = true
  case neg => rw [if_neg hl] at h; cases h
  rw [if_pos hl] at h
  injection h with h
  have hw : w.waiting = false := by
    cases hw : w.waiting with
    | false => rfl
    | true => rw [(hi.wait hw).1] at hl; cases hl
  refine ⟨hl, hw, ?_⟩
  subst h
  have hub := hi'.core.ub
  revert hub
  unfold BufferedRead.loopIter
  split
  · intro _
    exact ⟨rfl, rfl, id, fun h => absurd (hw.symm.trans h) (by simp), (fun h => nomatch h), Or.inr rfl⟩
  · next j hj =>
    split
    · next w1 hr =>
      intro hub
      have hub1 : (BufferedRead.runJob H w j).1.ub = false := by
        have : (BufferedRead.runJob H w j).1 = w := BufferedRead.runJob_again H w j (by rw [hr])
        rw [this]; exact hi.core.ub
      obtain ⟨-, -, -, -, -, a6, -⟩ := runJob_facts H w j hub1 hr
      have e := a6 rfl
      subst e
      revert hub
      unfold BufferedRead.fillBuffer
      have rs : ∀ v : World, BufferedRead.readSome H v j SUCCESS = { v with waiting := true } := fun v => by
        unfold BufferedRead.readSome; rw [if_neg (by simp)]
      split
      · split
        · intro hub
          cases hr2 : BufferedRead.runJob H { w1 with lastError := MESSAGE_TOO_LONG } j with
          | mk w2 b =>
            rw [hr2] at hub
            obtain ⟨b1, b2, b3, b4, b5, b6, b7⟩ := runJob_facts H { w1 with lastError := MESSAGE_TOO_LONG } j (by rw [hr2]; exact hub) hr2
            refine ⟨b2, b3, b4, fun h => ?_, (fun h => nomatch h), ?_⟩
            · exact absurd (hw.symm.trans (b1.symm.trans h)) (by simp)
            · rcases b7 with ⟨c, c1, c2, c3⟩ | c1
              · exact Or.inl ⟨c, c1, Or.inr c2, c3⟩
              · exact Or.inr c1
        · intro _
          rw [rs]
          exact ⟨rfl, rfl, id, fun _ => ⟨rfl, rfl⟩, (fun h => nomatch h), Or.inr rfl⟩
      · intro _
        rw [rs]
        exact ⟨rfl, rfl, id, fun _ => ⟨rfl, rfl⟩, (fun h => nomatch h), Or.inr rfl⟩
    · next w1 hr =>
      intro hub
      obtain ⟨b1, b2, b3, b4, b5, b6, b7⟩ := runJob_facts H w j (by rw [hr]; exact hub) hr
      refine ⟨b2, b3, b4, fun h => absurd (hw.symm.trans (b1.symm.trans h)) (by simp), (fun h => nomatch h), ?_⟩
      rcases b7 with ⟨c, c1, c2, c3⟩ | c1
      · exact Or.inl ⟨c, c1, Or.inl c2, c3⟩
      · exact Or.inr c1
    · next w1 hr =>
      intro hub
      obtain ⟨b1, b2, b3, b4, b5, b6, b7⟩ := runJob_facts H w j (by rw [hr]; exact hub) hr
      refine ⟨b2, b3, b4, fun h => absurd (hw.symm.trans (b1.symm.trans h)) (by simp), fun _ => b5 rfl, ?_⟩
      rcases b7 with ⟨c, c1, c2, c3⟩ | c1
      · exact Or.inl ⟨c, c1, Or.inl c2, c3⟩
      · exact Or.inr c1

/-- A user action outside of handlers. -/
theorem user_facts (H : Handler) (w w' : World) (a : UAct) (h : BufferedRead.step H w (.user a) = some w') :
    w.looping = false ∧ w.closed = false ∧ w'.waiting = w.waiting ∧ w'.received = w.received ∧ w'.transportErrs = w.transportErrs ∧ w'.calls = w.calls ∧
      (w'.closed = true → w'.looping = false) ∧ w'.rb.spaceAvailable = w.rb.spaceAvailable := by
  unfold BufferedRead.step at h
  dsimp only at h
  split at h
  · cases h
  · next hg =>
    simp only [Bool.or_eq_true, not_or, Bool.not_eq_true] at hg
    obtain ⟨g1, g2⟩ := hg
    have k := act_kept w a
    refine ⟨g1, g2, ?_⟩
    cases a with
    | consume n => cases h; exact ⟨rfl, rfl, rfl, rfl, fun _ => g1, rfl⟩
    | read j =>
      cases h
      refine ⟨k.waiting, k.received, k.errs, k.calls, fun hc => ?_, ?_⟩
      · exfalso
        have : (BufferedRead.read w j).closed = w.closed := by
          unfold BufferedRead.read; split
          · split <;> rfl
          · rfl
        have hc : (BufferedRead.read w j).closed = true := hc
        rw [this, g2] at hc; cases hc
      · show (BufferedRead.read w j).rb.spaceAvailable = _
        have : (BufferedRead.read w j).rb = w.rb := by
          unfold BufferedRead.read; split
          · split <;> rfl
          · rfl
        rw [this]
    | close =>
      cases h
      refine ⟨k.waiting, k.received, k.errs, k.calls, fun _ => ?_, ?_⟩
      · show (BufferedRead.close w).looping = false
        unfold BufferedRead.close; split <;> exact g1
      · show (BufferedRead.close w).rb.spaceAvailable = _
        unfold BufferedRead.close; split <;> rfl

end Cio.StreamSocket
