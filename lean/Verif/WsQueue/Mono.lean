import Verif.WsQueue.Spec
/-
Flags that are never cleared.
-/
namespace Cio.WsQueue

/-- `closedByError` and `selfClose` are kept. -/
def Keeps (w w' : World) : Prop :=
  (w.closedByError = true → w'.closedByError = true) ∧ (w.selfClose = true → w'.selfClose = true)

theorem Keeps.refl (w : World) : Keeps w w := ⟨id, id⟩
theorem Keeps.trans {a b c : World} (h : Keeps a b) (h' : Keeps b c) : Keeps a c := ⟨h'.1 ∘ h.1, h'.2 ∘ h.2⟩

theorem Keeps.after {a b c : World} (h' : Keeps b c) (h : Keeps a b) : Keeps a c := h.trans h'

theorem keeps_handleError (w : World) (st : List Item) : Keeps w (handleError w st).w := by
  unfold handleError
  split
  · exact Keeps.refl _
  · exact ⟨fun _ => rfl, id⟩

theorem keeps_callHandler (w : World) (h : Handler) (r : Res) (ch : List Elem) (st : List Item) : Keeps w (callHandler w h r ch st).w := by
  unfold callHandler
  cases h with
  | null => exact Keeps.refl _
  | stale => exact ⟨id, id⟩
  | user t => exact ⟨id, id⟩
  | pongWritten =>
    simp only [pongWritten]
    split
    · exact keeps_handleError _ _
    · exact ⟨id, id⟩

theorem keeps_dequeue {w w' : World} {k : Kind} (h : dequeue w = some (k, w')) : Keeps w w' := by
  unfold dequeue at h
  split at h
  · cases h
  · simp at h; rw [← h.2]; exact ⟨id, id⟩

theorem keeps_onWritten (w : World) (r : Res) (st : List Item) : Keeps w (onWritten w r st).w := by
  unfold onWritten
  cases hd : dequeue w with
  | none => exact ⟨id, id⟩
  | some p =>
    obtain ⟨k, w1⟩ := p
    have h := keeps_dequeue hd
    simp only
    have h2 : Keeps w (setJob w1 k { w1.jobs k with wbh := none }) := h
    generalize setJob w1 k { w1.jobs k with wbh := none } = w2 at h2
    cases w2.bsHandler with
    | messageWritten =>
      simp only
      split
      · exact h2
      · exact h2.trans (keeps_callHandler _ _ _ _ _)
    | closeWritten => exact h2
    | closeWrittenImmediate => exact h2
    | responseCloseWritten => exact h2

theorem keeps_sendFrame (w : World) (k : Kind) (len : Nat) (tr : Outcome) (st : List Item) : Keeps w (sendFrame w k len tr st).1.w := by
  unfold sendFrame
  cases (w.jobs k).wbh with
  | none => exact ⟨id, id⟩
  | some chain =>
    cases tr with
    | now r => exact keeps_onWritten (log { setJob w k _ with bsHandler := _ } _) _ _
    | later => exact ⟨id, id⟩
    | refuse => exact ⟨id, id⟩

theorem keeps_enqueue (w : World) (k : Kind) (len : Nat) (tr : Outcome) (st : List Item) : Keeps w (enqueue w k len tr st).1.w := by
  unfold enqueue
  cases w.first with
  | none =>
    have h : Keeps w (sendFrame { w with first := some k, last := some k } k len tr st).1.w := keeps_sendFrame { w with first := some k, last := some k } _ _ _ _
    simp only
    generalize sendFrame { w with first := some k, last := some k } k len tr st = p at h
    obtain ⟨s, ok⟩ := p
    cases ok
    · exact h.trans (keeps_handleError _ _)
    · exact h
  | some _ =>
    cases w.last with
    | none => exact ⟨id, id⟩
    | some l => exact ⟨id, id⟩

theorem keeps_doCall (w : World) (c : Call) (tr : Outcome) (st : List Item) : Keeps w (doCall w c tr st).w := by
  cases c with
  | first n p l b =>
    simp only [doCall]
    split
    · exact ⟨id, id⟩
    · exact Keeps.after (keeps_enqueue _ _ _ _ _) ⟨id, id⟩
  | cont p => exact Keeps.after (keeps_enqueue _ _ _ _ _) ⟨id, id⟩
  | ping p =>
    simp only [doCall]
    split
    · exact ⟨id, id⟩
    · split
      · exact ⟨id, id⟩
      · exact Keeps.after (keeps_enqueue _ _ _ _ _) ⟨id, id⟩
  | pong p =>
    simp only [doCall]
    split
    · exact ⟨id, id⟩
    · split
      · exact ⟨id, id⟩
      · exact Keeps.after (keeps_enqueue _ _ _ _ _) ⟨id, id⟩
  | close n b =>
    simp only [doCall]
    split
    · exact ⟨id, id⟩
    · split
      · exact ⟨id, id⟩
      · refine Keeps.trans ?_ (keeps_enqueue _ _ _ _ _)
        exact ⟨id, fun _ => rfl⟩
  | read => exact ⟨id, id⟩

theorem keeps_arrive (w : World) (a : Act) (tr : Outcome) (st : List Item) : Keeps w (arrive w a tr st).w := by
  cases a with
  | gotPing n => exact Keeps.after (keeps_enqueue _ _ _ _ _) ⟨id, id⟩
  | gotClose n =>
    simp only [arrive]
    split
    · exact ⟨id, id⟩
    · exact Keeps.after (keeps_enqueue _ _ _ _ _) ⟨id, id⟩
  | fail => exact Keeps.after (keeps_handleError _ _) ⟨id, id⟩
  | _ => exact ⟨id, id⟩

theorem keeps_step (s : State) (c : Choice) : Keeps s.w (step s c).w := by
  unfold step
  split
  · exact Keeps.refl _
  · split
    · split
      · split <;> exact ⟨id, id⟩
      · split
        · exact Keeps.after (keeps_onWritten _ _ _) ⟨id, id⟩
        · exact ⟨id, id⟩
      · split
        · exact keeps_doCall _ _ _ _
        · exact ⟨id, id⟩
      · exact ⟨id, id⟩
      · split
        · exact keeps_arrive _ _ _ _
        · exact ⟨id, id⟩
    · split
      · exact ⟨id, id⟩
      · split
        · exact keeps_doCall _ _ _ _
        · exact ⟨id, id⟩
      · exact ⟨id, id⟩
    · split
      · exact ⟨id, id⟩
      · exact ⟨id, id⟩
      · exact ⟨id, id⟩
      · exact ⟨id, id⟩
      · split
        · exact keeps_arrive _ _ _ _
        · exact ⟨id, id⟩
    · exact ⟨id, id⟩
    · split
      · exact ⟨id, id⟩
      · split
        · exact ⟨id, id⟩
        · rename_i k rest _ _ _ chain _
          have h := keeps_sendFrame s.w k (total chain) c.tr rest
          generalize sendFrame s.w k (total chain) c.tr rest = p at h
          obtain ⟨s', ok⟩ := p
          cases ok
          · exact h.trans (keeps_handleError _ _)
          · exact h
    · split
      · exact ⟨id, id⟩
      · split
        · exact ⟨id, id⟩
        · rename_i h
          exact (keeps_dequeue h).trans (Keeps.after (keeps_callHandler _ _ _ _ _) ⟨id, id⟩)
    · split
      · exact ⟨id, id⟩
      · rename_i rest _ _
        have h := Keeps.trans (a := s.w) ⟨id, id⟩ (keeps_enqueue (prepareClose s.w errReason .null .closeWrittenImmediate) .close (2 + errReason) c.tr rest)
        generalize enqueue (prepareClose s.w errReason .null .closeWrittenImmediate) .close (2 + errReason) c.tr rest = p at h
        obtain ⟨s', ok⟩ := p
        cases ok
        · exact h
        · exact h
    · split
      · exact ⟨id, id⟩
      · exact keeps_callHandler _ _ _ _ _
    · exact ⟨id, id⟩

end Cio.WsQueue
