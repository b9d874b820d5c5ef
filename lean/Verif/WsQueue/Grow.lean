import Verif.WsQueue.Spec
/-
The log only grows.
-/
namespace Cio.WsQueue

/-- What was observed stays observed. -/
def Grows (w w' : World) : Prop := w.log <:+ w'.log

theorem Grows.refl (w : World) : Grows w w := List.suffix_rfl
theorem Grows.trans {a b c : World} (h : Grows a b) (h' : Grows b c) : Grows a c := List.IsSuffix.trans h h'
theorem Grows.after {a b c : World} (h' : Grows b c) (h : Grows a b) : Grows a c := h.trans h'
theorem Grows.same {a b : World} (h : b.log = a.log) : Grows a b := by unfold Grows; rw [h]; exact List.suffix_rfl
theorem Grows.log (a : World) {b : World} {e : Ev} (h : b.log = e :: a.log) : Grows a b := by unfold Grows; rw [h]; exact List.suffix_cons _ _

macro "gr" : tactic => `(tactic| first | exact Grows.same rfl | exact Grows.log _ rfl)

theorem grows_handleError (w : World) (st : List Item) : Grows w (handleError w st).w := by
  unfold handleError
  split
  · exact Grows.refl _
  · gr

theorem grows_callHandler (w : World) (h : Handler) (r : Res) (ch : List Elem) (st : List Item) : Grows w (callHandler w h r ch st).w := by
  unfold callHandler
  cases h with
  | null => exact Grows.refl _
  | stale => gr
  | user t => gr
  | pongWritten =>
    simp only [pongWritten]
    split
    · exact grows_handleError _ _
    · gr

theorem grows_dequeue {w w' : World} {k : Kind} (h : dequeue w = some (k, w')) : Grows w w' := by
  unfold dequeue at h
  split at h
  · cases h
  · simp at h; rw [← h.2]; gr

theorem grows_onWritten (w : World) (r : Res) (st : List Item) : Grows w (onWritten w r st).w := by
  unfold onWritten
  cases hd : dequeue w with
  | none => gr
  | some p =>
    obtain ⟨k, w1⟩ := p
    have h := grows_dequeue hd
    simp only
    have h2 : Grows w (setJob w1 k { w1.jobs k with wbh := none }) := h
    generalize setJob w1 k { w1.jobs k with wbh := none } = w2 at h2
    cases w2.bsHandler with
    | messageWritten =>
      simp only
      split
      · exact h2
      · exact h2.trans (grows_callHandler _ _ _ _ _)
    | closeWritten => exact h2
    | closeWrittenImmediate => exact h2
    | responseCloseWritten => exact h2

theorem grows_sendFrame (w : World) (k : Kind) (len : Nat) (tr : Outcome) (st : List Item) : Grows w (sendFrame w k len tr st).1.w := by
  unfold sendFrame
  cases (w.jobs k).wbh with
  | none => gr
  | some chain =>
    cases tr with
    | now r =>
      refine Grows.after (grows_onWritten _ _ _) ?_
      gr
    | later => gr
    | refuse => gr

theorem grows_enqueue (w : World) (k : Kind) (len : Nat) (tr : Outcome) (st : List Item) : Grows w (enqueue w k len tr st).1.w := by
  unfold enqueue
  cases w.first with
  | none =>
    have h : Grows w (sendFrame { w with first := some k, last := some k } k len tr st).1.w := grows_sendFrame { w with first := some k, last := some k } _ _ _ _
    simp only
    generalize sendFrame { w with first := some k, last := some k } k len tr st = p at h
    obtain ⟨s, ok⟩ := p
    cases ok
    · exact h.trans (grows_handleError _ _)
    · exact h
  | some _ =>
    cases w.last with
    | none => gr
    | some l => gr

theorem grows_doCall (w : World) (c : Call) (tr : Outcome) (st : List Item) : Grows w (doCall w c tr st).w := by
  cases c with
  | first n p l b =>
    simp only [doCall]
    split
    · gr
    · exact Grows.after (grows_enqueue _ _ _ _ _) (by gr)
  | cont p => exact Grows.after (grows_enqueue _ _ _ _ _) (by gr)
  | ping p =>
    simp only [doCall]
    split
    · gr
    · split
      · gr
      · exact Grows.after (grows_enqueue _ _ _ _ _) (by gr)
  | pong p =>
    simp only [doCall]
    split
    · gr
    · split
      · gr
      · exact Grows.after (grows_enqueue _ _ _ _ _) (by gr)
  | close n b =>
    simp only [doCall]
    split
    · gr
    · split
      · gr
      · refine Grows.trans ?_ (grows_enqueue _ _ _ _ _)
        gr
  | read => gr

theorem grows_arrive (w : World) (a : Act) (tr : Outcome) (st : List Item) : Grows w (arrive w a tr st).w := by
  cases a with
  | gotPing n => exact Grows.after (grows_enqueue _ _ _ _ _) (by gr)
  | gotClose n =>
    simp only [arrive]
    split
    · gr
    · exact Grows.after (grows_enqueue _ _ _ _ _) (by gr)
  | fail => exact Grows.after (grows_handleError _ _) (by gr)
  | _ => gr

theorem grows_step (s : State) (c : Choice) : Grows s.w (step s c).w := by
  unfold step
  split
  · exact Grows.refl _
  · split
    · split
      · split <;> gr
      · split
        · exact Grows.after (grows_onWritten _ _ _) (by gr)
        · gr
      · split
        · exact grows_doCall _ _ _ _
        · gr
      · gr
      · split
        · exact grows_arrive _ _ _ _
        · gr
    · split
      · gr
      · split
        · exact grows_doCall _ _ _ _
        · gr
      · gr
    · split
      · gr
      · gr
      · gr
      · gr
      · split
        · exact grows_arrive _ _ _ _
        · gr
    · gr
    · split
      · gr
      · split
        · gr
        · rename_i k rest _ _ _ chain _
          have h := grows_sendFrame s.w k (total chain) c.tr rest
          generalize sendFrame s.w k (total chain) c.tr rest = p at h
          obtain ⟨s', ok⟩ := p
          cases ok
          · exact h.trans (grows_handleError _ _)
          · exact h
    · split
      · gr
      · split
        · gr
        · rename_i h
          exact (grows_dequeue h).trans (Grows.after (grows_callHandler _ _ _ _ _) (by gr))
    · split
      · gr
      · rename_i rest _ _
        have h := Grows.trans (a := s.w) (Grows.same rfl) (grows_enqueue (prepareClose s.w errReason .null .closeWrittenImmediate) .close (2 + errReason) c.tr rest)
        generalize enqueue (prepareClose s.w errReason .null .closeWrittenImmediate) .close (2 + errReason) c.tr rest = p at h
        obtain ⟨s', ok⟩ := p
        cases ok
        · exact h
        · exact h
    · split
      · gr
      · exact grows_callHandler _ _ _ _ _
    · gr

end Cio.WsQueue
