import Verif.WsQueue.ContentStep
/-
C23, C24: the write queue and the closing handshake, for every execution that keeps to the rules (`Reach`) and in which the connection does not fail
after the user has begun to close it (`Clean`).  What is false without these conditions is in `Neg`.
-/
namespace Cio.WsQueue

theorem reach_j {s : State} (h : Reach s) (hc : Clean s) : J s.w := by
  rcases reach_inv h with h | ⟨-, h, -⟩ | ⟨-, h⟩
  · exact absurd h hc
  · exact h
  · exact h.j

/-! ### C24 -/

/-- Tickets number the accepted calls in the order of acceptance. -/
theorem tickets_in_order {s : State} (h : Reach s) (hc : Clean s) : acceptedT s.w.log = (List.range (acceptedT s.w.log).length).reverse :=
  acceptedT_eq (reach_K h hc).lg

/-- No write handler is called twice, and none without an accepted call. -/
theorem handler_at_most_once_partial {s : State} (h : Reach s) (hc : Clean s) :
    (completedT s.w.log).Nodup ∧ ∀ t ∈ completedT s.w.log, t ∈ acceptedT s.w.log := by
  have j := reach_j h hc
  have k := reach_K h hc
  refine ⟨List.nodup_iff_count.mpr j.once, fun t ht => ?_⟩
  rw [acceptedT_eq k.lg, List.mem_reverse, List.mem_range, ← k.tickets]
  exact j.known t ht

/-- Whenever the library has nothing to do and the transport owes it no callback, every accepted write has had its handler called, exactly once: always
while the connection is open, and also after the close hook if the user had not called `cio_websocket_close`. -/
theorem every_write_completed_partial {s : State} (h : Reach s) (hc : Clean s) (hub : s.w.ub = false) (hst : s.stack = [])
    (hq : (s.w.closes = 0 ∧ s.w.pend = false) ∨ (s.w.closes ≠ 0 ∧ s.w.selfClose = false)) :
    ∀ t ∈ acceptedT s.w.log, (completedT s.w.log).count t = 1 := by
  intro t ht
  have k := reach_K h hc
  rw [acceptedT_eq k.lg, List.mem_reverse, List.mem_range, ← k.tickets] at ht
  have key : ∀ q, Base s.w q [] → qT s.w q = [] → (completedT s.w.log).count t = 1 := by
    intro q b hq
    have := b.cnt t
    rw [hq, if_pos ht] at this
    simpa using this
  rcases reach_inv h with h | ⟨h, -⟩ | ⟨-, p⟩
  · exact absurd h hc
  · rw [hub] at h; cases h
  · obtain ⟨w, st⟩ := s
    have hst : st = [] := hst
    subst hst
    generalize hs : ([] : List Item) = st at p
    cases p with
    | calm _ q u c =>
      subst hs
      have hs := c.send
      cases hs with
      | idle => exact key [] c.base rfl
      | flight k' u h1 =>
        rcases hq with hq | hq
        · rw [show w.pend = false from hq.2] at h1; cases h1
        · exact absurd c.open_ hq.1
      | wait k' u h1 h2 => cases h2
    | errored _ q' h1 h2 h3 h4 h5 h6 =>
      rcases hq with hq | hq
      · rw [show w.pend = false from hq.2] at h6; cases h6
      · exact absurd h4 hq.1
    | dead _ q h1 h2 h3 h4 h5 =>
      rcases hq with hq | hq
      · rw [show w.closes = 0 from hq.1] at h2; cases h2
      · exact key q h1 (h5 hq.2)
    | errAbort b => cases b <;> cases hs
    | closeAbort b => cases b <;> cases hs
    | respAbort b => cases b <;> cases hs
    | _ => cases hs

/-- Frames are given to the transport in the order in which the calls were accepted, each at most once. -/
theorem sent_in_order_partial {s : State} (h : Reach s) (hc : Clean s) : (sentT s.w.log).reverse.Pairwise (· < ·) := by
  rw [List.pairwise_reverse]
  exact (reach_j h hc).ord

/-- A handler is told of success or of a failed transport only if the frame was given to the transport. -/
theorem success_was_sent_partial {s : State} (h : Reach s) (hc : Clean s) : ∀ t, (t, .success) ∈ completedR s.w.log → t ∈ sentT s.w.log :=
  (reach_j h hc).succ

theorem LogOk.mem {l : List Ev} (h : LogOk l) {e : Ev} (he : e ∈ l) : ∃ a b, l = a ++ e :: b ∧ EvOk e b := by
  induction l with
  | nil => cases he
  | cons x l ih =>
    rcases List.mem_cons.mp he with rfl | he
    · exact ⟨[], l, rfl, h.1⟩
    · obtain ⟨a, b, e1, e2⟩ := ih h.2 he
      exact ⟨x :: a, b, by rw [e1]; rfl, e2⟩

theorem LogOk.at {l a b : List Ev} {e : Ev} (h : LogOk l) (hl : l = a ++ e :: b) : EvOk e b := by
  subst hl
  induction a with
  | nil => exact h.1
  | cons x a ih => exact ih h.2

/-- What is given to the transport for a call is what the call was accepted with: kind of frame, opcode, fin bit, payload.  The length announced in
the header is the one asked for or the size of the payload. -/
theorem sent_is_accepted_partial {s : State} (h : Reach s) (hc : Clean s) (k : Kind) (t : Nat) (cont : Bool) (op : Nat) (fin : Bool) (a : Nat) (p : List Elem)
    (hm : .sent k (.user t) cont op fin a p ∈ s.w.log) :
    ∃ payload fl, .accepted t k payload cont op fin fl ∈ s.w.log ∧ p = payload.map .usr ∧ (cont = false → a = fl ∨ a = payload.sum) ∧
      (cont = false → k ≠ .message → a = payload.sum) := by
  obtain ⟨x, b, hl, he⟩ := (reach_K h hc).lg.mem hm
  obtain ⟨-, payload, fl, h1, h2, -, h3, h4⟩ := he
  exact ⟨payload, fl, by rw [hl]; exact List.mem_append_right _ (List.mem_cons_of_mem _ h1), h2, h3, h4⟩

/-- When the handler of a message, ping or pong is called, then if the frame had not been sent the result is CIO_OPERATION_ABORTED;
if it had been sent and the write was not aborted the user's write buffer has its original content again.
(Further chunks of a frame, and aborted writes, are excepted: see `Neg`.) -/
theorem chain_given_back_partial {s : State} (h : Reach s) (hc : Clean s) (a b : List Ev) (t : Nat) (r : Res) (ch : List Elem)
    (hl : s.w.log = a ++ .completed t r ch :: b) (k : Kind) (payload : List Nat) (cont : Bool) (op : Nat) (fin : Bool) (fl : Nat)
    (hm : .accepted t k payload cont op fin fl ∈ b) (hk : k ≠ .close) :
    (t ∉ sentT b → r = .aborted) ∧ (t ∈ sentT b → r ≠ .aborted → cont = false → ch = payload.map .usr) := by
  have he := (reach_K h hc).lg.at hl k payload cont op fin fl hm hk
  exact ⟨fun h => (he.1 h).1, he.2⟩

/-! ### C23 -/

/-- The connection is closed, with the close hook called, at most once. -/
theorem closed_at_most_once_partial {s : State} (h : Reach s) (hc : Clean s) : s.w.closes ≤ 1 := (reach_j h hc).closes

/-- At most one close frame is sent. -/
theorem one_close_frame_partial {s : State} (h : Reach s) (hc : Clean s) : (sentK s.w.log).count .close ≤ 1 := (reach_j h hc).c1

/-- If the user does not close the connection, nothing is sent after a close frame. -/
theorem nothing_after_close_frame_partial {s : State} (h : Reach s) (hc : Clean s) (hs : s.w.selfClose = false) (hm : .close ∈ sentK s.w.log) :
    (sentK s.w.log).head? = some .close := (reach_j h hc).c2 hs hm

/-- As long as the connection has not failed and is not closed there is no undefined behaviour. -/
theorem no_ub_partial {s : State} (h : Reach s) (hc : Clean s) (he : s.w.closedByError = false) (h0 : s.w.closes = 0) : s.w.ub = false := by
  rcases reach_inv h with h | ⟨-, -, h | h⟩ | ⟨h, -⟩
  · exact absurd h hc
  · rw [he] at h; cases h
  · exact absurd h0 h
  · exact h

/-- After a failure the transport owes the library a callback, and that one closes the connection. -/
theorem failure_closes {s : State} (h : Reach s) (hc : Clean s) (hub : s.w.ub = false) (hst : s.stack = []) (he : s.w.closedByError = true)
    (h0 : s.w.closes = 0) : s.w.pend = true ∧ ∀ r c1 c2 c3 c4, (run s [⟨.written r, c1⟩, c2, c3, c4]).w.closes = 1 ∨
      ∀ c5, (run s [⟨.written r, c1⟩, c2, c3, c4, c5]).w.closes = 1 := by
  rcases reach_inv h with h | ⟨h, -⟩ | ⟨-, p⟩
  · exact absurd h hc
  · rw [hub] at h; cases h
  · obtain ⟨w, st⟩ := s
    have hst : st = [] := hst
    have hub : w.ub = false := hub
    subst hst
    generalize hs : ([] : List Item) = st at p
    cases p with
    | calm _ q u c => have := c.cbe; rw [show w.closedByError = true from he] at this; cases this
    | errored _ q' hb h2 h3 h4 h5 h6 hbs hh hq =>
      subst hs
      refine ⟨h6, ?_⟩
      intro r c1 c2 c3 c4
      have hb1 : Base { w with pend := false } (.close :: q') [] := hb.congr rfl rfl rfl rfl id id rfl rfl rfl rfl
      have hb2 := hb1.pop
      rw [show (({ w with pend := false } : World).jobs .close).handler = .null from hh] at hb2
      have e : onWritten { w with pend := false } r [] = ⟨popped { w with pend := false } .close q', [.abort, .callClose r, .closeNow]⟩ := by
        rw [onWritten_eq hb1.core]
        show (match w.bsHandler with | .messageWritten => _ | .closeWritten => _ | .closeWrittenImmediate => _ | .responseCloseWritten => _) = _
        rw [hbs]
      have hh2 : ((popped { w with pend := false } .close q').jobs .close).handler = .null := by rw [popped_handler]; exact hh
      have hp2 : ∀ k ∈ q', ((popped { w with pend := false } .close q').jobs k).handler = .pongWritten := by
        intro k hk
        rw [popped_handler]
        rcases hq with h | h
        · subst h; cases hk
        · rw [h.1] at hk; simp at hk; subst hk; exact h.2.1
      have hu2 : (popped { w with pend := false } .close q').ub = false := hub
      have ho2 : (popped { w with pend := false } .close q').closes = 0 := h4
      have he2 : (popped { w with pend := false } .close q').closedByError = true := h2
      have hqq : q' = [] ∨ q' = [.pong] := by
        rcases hq with h | h
        · exact .inl h
        · exact .inr h.1
      generalize hW : popped { w with pend := false } .close q' = W at e hb2 hh2 hp2 hu2 ho2 he2
      have fin : ∀ (W : World) (c c' : Choice), W.ub = false → W.closes = 0 → (W.jobs .close).handler = .null →
          step (step ⟨W, [.callClose r, .closeNow]⟩ c) c' = ⟨log { W with closes := W.closes + 1 } .closed, []⟩ := by
        intro W c c' hu ho hh
        have : step ⟨W, [.callClose r, .closeNow]⟩ c = ⟨W, [.closeNow]⟩ := by
          have h1 : ¬ W.closes > 0 := by omega
          simp only [step, hu, Bool.false_eq_true, if_false, if_neg h1, hh, callHandler]
        rw [this, step_closeNow _ hu]
      have run4 : run ⟨w, []⟩ [⟨.written r, c1⟩, c2, c3, c4] = step (step (step ⟨W, [.abort, .callClose r, .closeNow]⟩ c2) c3) c4 := by
        show step (step (step (step ⟨w, []⟩ ⟨.written r, c1⟩) c2) c3) c4 = _
        rw [step_written rfl hub h6 h4, e]
      rcases hqq with h | h
      · subst h
        left
        rw [run4, abort_nil c2 hu2 ho2 hb2.core, fin W c3 c4 hu2 ho2 hh2]
        show W.closes + 1 = 1
        omega
      · subst h
        right
        intro c5
        have run5 : run ⟨w, []⟩ [⟨.written r, c1⟩, c2, c3, c4, c5] = step (run ⟨w, []⟩ [⟨.written r, c1⟩, c2, c3, c4]) c5 := rfl
        rw [run5, run4, abort_cons c2 hu2 ho2 hb2.core, hp2 .pong (by simp)]
        have : callHandler (popped W .pong []) .pongWritten .aborted ((W.jobs .pong).wbh.getD []) [.abort, .callClose r, .closeNow] =
            ⟨popped W .pong [], [.abort, .callClose r, .closeNow]⟩ := by
          simp only [callHandler, pongWritten, handleError]
          rw [if_pos (by simp), if_pos (by exact he2)]
        rw [this, abort_nil c3 (by exact hu2) (by exact ho2) hb2.pop.core, fin _ c4 c5 (by exact hu2) (by exact ho2) (by rw [popped_handler]; exact hh2)]
        show W.closes + 1 = 1
        omega
    | dead _ q h1 h2 => rw [show w.closes = 0 from h0] at h2; cases h2
    | errAbort b => cases b <;> cases hs
    | closeAbort b => cases b <;> cases hs
    | respAbort b => cases b <;> cases hs
    | _ => cases hs

end Cio.WsQueue
