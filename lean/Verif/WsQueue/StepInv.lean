import Verif.WsQueue.Calls
import Verif.WsQueue.Mono
/-
The invariant is kept by every step.
-/
namespace Cio.WsQueue

theorem abort_nil {w : World} {rest : List Item} (c : Choice) (hub : w.ub = false) (h0 : w.closes = 0) (core : Core w []) :
    step ⟨w, .abort :: rest⟩ c = ⟨w, rest⟩ := by
  have h1 : ¬ w.closes > 0 := by omega
  simp only [step, hub, Bool.false_eq_true, if_false, if_neg h1, dequeue_nil core]

theorem abort_cons {w : World} {rest : List Item} {k : Kind} {q : List Kind} (c : Choice) (hub : w.ub = false) (h0 : w.closes = 0) (core : Core w (k :: q)) :
    step ⟨w, .abort :: rest⟩ c = callHandler (popped w k q) (w.jobs k).handler .aborted ((w.jobs k).wbh.getD []) (.abort :: rest) := by
  have h1 : ¬ w.closes > 0 := by omega
  simp only [step, hub, Bool.false_eq_true, if_false, if_neg h1, dequeue_cons core, popped]

theorem user_step {w : World} {rest : List Item} (c : Choice) (hub : w.ub = false) (ha : Allowed ⟨w, .user true :: rest⟩ c) :
    step ⟨w, .user true :: rest⟩ c = ⟨w, rest⟩ ∨ step ⟨w, .user true :: rest⟩ c = ⟨w, .user true :: rest⟩ := by
  simp only [step, hub, Bool.false_eq_true, if_false]
  cases hact : c.act with
  | ret => exact .inl rfl
  | call call =>
    unfold Allowed at ha
    rw [hact] at ha
    exact absurd rfl ha.1
  | _ => exact .inr rfl

/-! ### After an error -/

theorem errAbort_inv {w : World} {rest : List Item} {q : List Kind} (b : Bool) (c : Choice) (hub : w.ub = false) (hb : Base w q [])
    (he : w.closedByError = true) (hsc : w.selfClose = false) (h0 : w.closes = 0) (hst : CalmSt rest) (hk : .close ∉ sentK w.log)
    (hs : ∀ k ∈ somes rest, k ≠ .close ∧ w.reading = false) (ha : Allowed ⟨w, pre b ++ .abort :: .errClose :: rest⟩ c) :
    Inv (step ⟨w, pre b ++ .abort :: .errClose :: rest⟩ c) := by
  cases b with
  | true =>
    rcases user_step c hub ha with h | h
    · have h : step ⟨w, pre true ++ .abort :: .errClose :: rest⟩ c = ⟨w, .abort :: .errClose :: rest⟩ := h
      rw [h]
      exact .inr (.inr ⟨hub, Phase.errAbort false rest q hb he hsc h0 hst hk hs⟩)
    · have h : step ⟨w, pre true ++ .abort :: .errClose :: rest⟩ c = ⟨w, pre true ++ .abort :: .errClose :: rest⟩ := h
      rw [h]
      exact .inr (.inr ⟨hub, Phase.errAbort true rest q hb he hsc h0 hst hk hs⟩)
  | false =>
    show Inv (step ⟨w, .abort :: .errClose :: rest⟩ c)
    cases q with
    | nil =>
      rw [abort_nil c hub h0 hb.core]
      exact .inr (.inr ⟨hub, Phase.errClose rest hb he hsc h0 hst hk hs⟩)
    | cons k q =>
      rw [abort_cons c hub h0 hb.core]
      have hp := hb.pop
      cases hh : (w.jobs k).handler with
      | null =>
        rw [hh] at hp
        exact .inr (.inr ⟨hub, Phase.errAbort false rest q hp he hsc h0 hst hk hs⟩)
      | stale => exact absurd hh (hb.core.ok k List.mem_cons_self).not_stale
      | user t =>
        rw [hh] at hp
        exact .inr (.inr ⟨hub, Phase.errAbort true rest q (hp.complete _ _ (fun h => (by cases h))) he hsc h0 hst hk hs⟩)
      | pongWritten =>
        rw [hh] at hp
        have : callHandler (popped w k q) .pongWritten .aborted ((w.jobs k).wbh.getD []) (.abort :: .errClose :: rest) =
            ⟨popped w k q, .abort :: .errClose :: rest⟩ := by
          simp only [callHandler, pongWritten, handleError]
          rw [if_pos (by simp), if_pos (by exact he)]
        rw [this]
        exact .inr (.inr ⟨hub, Phase.errAbort false rest q hp he hsc h0 hst hk hs⟩)

theorem errClose_inv {w : World} {rest : List Item} (c : Choice) (hub : w.ub = false) (hb : Base w [] [])
    (he : w.closedByError = true) (hsc : w.selfClose = false) (h0 : w.closes = 0) (hst : CalmSt rest) (hk : .close ∉ sentK w.log)
    (hs : ∀ k ∈ somes rest, k ≠ .close ∧ w.reading = false) : Inv (step ⟨w, .errClose :: rest⟩ c) := by
  have h1 : ¬ w.closes > 0 := by omega
  have hfirst : (prepareClose w errReason .null .closeWrittenImmediate).first = none := hb.core.first
  have hwbh : ((prepareClose w errReason .null .closeWrittenImmediate).jobs .close).wbh = some [.usr (2 + min errReason 123)] := by simp [prepareClose, setJob]
  simp only [step, hub, Bool.false_eq_true, if_false, if_neg h1]
  unfold enqueue
  rw [hfirst]
  simp only
  unfold sendFrame
  simp only [hwbh]
  -- the world just before the transport is asked
  have hjob : (prepareClose w errReason .null .closeWrittenImmediate).jobs .close =
      { w.jobs .close with wbh := some [.usr (2 + min errReason 123)], handler := .null, streamHandler := .closeWrittenImmediate, opcode := 8, lastFrame := true } := by
    simp [prepareClose, setJob]
  generalize hch : (if ((prepareClose w errReason .null .closeWrittenImmediate).jobs .close).cont = true then [Elem.usr (2 + min errReason 123)]
    else [.hdr, .usr (2 + min errReason 123)]) = ch
  have hcore : ∀ (pend : Bool) (l : List Ev), Core { setJob { prepareClose w errReason .null .closeWrittenImmediate with first := some .close, last := some .close } .close
      { (prepareClose w errReason .null .closeWrittenImmediate).jobs .close with wbh := some ch } with
        bsHandler := .closeWrittenImmediate, pend := pend, log := l } [.close] := by
    intro pend l
    refine hb.core.single ?_ rfl rfl ?_ ?_ hb.core.timer
    · intro x hx; simp [prepareClose, setJob, hx]
    · simp [setJob]
    · exact .inr (.inr ⟨by simp [setJob, prepareClose], he⟩)
  have hcnt : ∀ t, (completedT w.log).count t + ([] : List Nat).count t + 0 = if t < w.tickets then 1 else 0 := by
    intro t; have := hb.cnt t; simpa [qT] using this
  have hqT : ∀ (pend : Bool) (l : List Ev), qT { setJob { prepareClose w errReason .null .closeWrittenImmediate with first := some .close, last := some .close } .close
      { (prepareClose w errReason .null .closeWrittenImmediate).jobs .close with wbh := some ch } with
        bsHandler := .closeWrittenImmediate, pend := pend, log := l } [.close] = [] := by
    intro pend l
    simp [qT, setJob, prepareClose, ticketOf]
  have hsh : ((prepareClose w errReason .null .closeWrittenImmediate).jobs .close).streamHandler = .closeWrittenImmediate := by rw [hjob]
  have hhd : ((prepareClose w errReason .null .closeWrittenImmediate).jobs .close).handler = .null := by rw [hjob]
  have hbase : ∀ (pend : Bool) (cont : Bool) (o : Nat) (f : Bool) (a : Nat) (p : List Elem),
      Base { setJob { prepareClose w errReason .null .closeWrittenImmediate with first := some .close, last := some .close } .close
      { (prepareClose w errReason .null .closeWrittenImmediate).jobs .close with wbh := some ch } with
        bsHandler := .closeWrittenImmediate, pend := pend, log := .sent .close .null cont o f a p :: w.log } [.close] [] := by
    intro pend cont o f a p
    refine ⟨hcore _ _, ?_, ?_, ?_, ?_, hb.succ⟩
    · intro t
      rw [hqT]
      exact hcnt t
    · have := hb.ord
      exact this.congr rfl (Nat.le_refl _)
    · show (Kind.close :: sentK w.log).count .close ≤ 1
      rw [List.count_cons, List.count_eq_zero.mpr hk]
      simp
    · intro _ _; rfl
  cases htr : c.tr with
  | now res =>
    simp only [if_true]
    rw [hsh, hhd]
    refine Eq.mpr (congrArg Inv (onWritten_eq (hbase w.pend _ _ _ _ _).core res rest)) ?_
    refine .inr (.inr ⟨hub, Phase.immAbort res rest [] ?_ he hsc h0 hst (fun k hk => (by cases hk)) ?_⟩)
    · have := (hbase w.pend ((prepareClose w errReason .null .closeWrittenImmediate).jobs .close).cont
          ((prepareClose w errReason .null .closeWrittenImmediate).jobs .close).opcode
          ((prepareClose w errReason .null .closeWrittenImmediate).jobs .close).lastFrame
          (if ((prepareClose w errReason .null .closeWrittenImmediate).jobs .close).cont = true then 0 else 2 + errReason) [.usr (2 + min errReason 123)]).pop
      have e2 : ticketOf ((setJob { prepareClose w errReason .null .closeWrittenImmediate with first := some .close, last := some .close } .close
        { (prepareClose w errReason .null .closeWrittenImmediate).jobs .close with wbh := some ch }).jobs .close).handler = [] := by
        simp [setJob, prepareClose, ticketOf]
      rw [e2] at this
      exact this
    · rw [popped_handler]
      simp [setJob, prepareClose]
  | later =>
    simp only [if_true]
    rw [hsh, hhd]
    refine .inr (.inr ⟨hub, Phase.errored rest [] ?_ he hsc h0 hst rfl rfl ?_ (.inl rfl) ?_⟩)
    · exact hbase true _ _ _ _ _
    · simp [log, setJob, prepareClose]
    · intro k hk'; exact ⟨(hs k hk').1, (hs k hk').2, rfl⟩
  | refuse =>
    simp only [Bool.false_eq_true, if_false]
    have e : ∀ (w' : World) (l : List Item), w'.closedByError = true → handleError w' l = ⟨w', l⟩ := by
      intro w' l h; simp [handleError, h]
    rw [e _ _ (by exact he)]
    simp only
    refine .inr (.inr ⟨hub, Phase.closing rest [.close] ?_ h0 hst ?_ ?_⟩)
    · rw [hsh]
      refine ⟨hcore w.pend w.log, ?_, ?_, hb.c1, hb.c2, hb.succ⟩
      · intro t
        exact Eq.trans (congrArg (fun z : List Nat => (completedT w.log).count t + ([] : List Nat).count t + z.count t) (hqT w.pend w.log)) (hcnt t)
      · exact hb.ord.congr rfl (Nat.le_refl _)
    · show w.timer = false
      cases ht : w.timer
      · rfl
      · have := hb.core.timer ht
        rw [hsc] at this; cases this
    · intro _
      simp [qT, setJob, prepareClose, ticketOf]

end Cio.WsQueue
