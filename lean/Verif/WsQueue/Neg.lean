import Verif.WsQueue.Props
/-
C23, C24: executions that meet the hypotheses of the theorems, and executions showing what is false without them.
-/
namespace Cio.WsQueue

instance (s : State) (c : Choice) : Decidable (Allowed s c) := by
  unfold Allowed
  split
  · rename_i call _
    cases call <;> exact inferInstance
  · exact inferInstance
  · exact inferInstance

/-- All the choices are allowed. -/
def okRun (s : State) : List Choice → Bool
  | [] => true
  | c :: cs => decide (Allowed s c) && okRun (step s c) cs

theorem reach_okRun {s : State} (h : Reach s) (cs : List Choice) (hc : okRun s cs = true) : Reach (run s cs) := by
  induction cs generalizing s with
  | nil => exact h
  | cons c cs ih =>
    simp only [okRun, Bool.and_eq_true, decide_eq_true_eq] at hc
    exact ih (Reach.step s c h hc.1) hc.2

instance (s : State) : Decidable (Clean s) := by unfold Clean; exact inferInstance

def A (a : Act) (tr : Outcome := .later) : Choice := ⟨a, tr⟩

/-! ### The hypotheses are met -/

/-- A message in flight, a ping queued behind it, a ping of the peer answered, then the peer closes while another message is queued. -/
def busy : List Choice :=
  [A (.call .read), A .ret, A (.call (.first 5 [2, 3] true true)), A (.call (.ping [1])), A (.gotPing 4), A (.written .success), A .ret, A .ret,
   A (.written .success), A .ret, A .ret, A (.written .success), A (.gotPing 2) (.now .success), A .ret, A .ret, A .ret, A .ret, A .ret,
   A (.call (.first 7 [7] true false)), A (.call (.ping [])), A (.gotClose 3), A (.written .success), A .ret, A .ret, A (.written .success), A .ret, A .ret,
   A (.written .success), A .ret, A .ret]

set_option maxRecDepth 20000 in
example : okRun {} busy = true ∧ Clean (run {} busy) ∧ (run {} busy).w.ub = false ∧ (run {} busy).stack = [] ∧ (run {} busy).w.closes = 1 ∧
    (run {} busy).w.selfClose = false ∧ acceptedT (run {} busy).w.log = [3, 2, 1, 0] ∧ completedT (run {} busy).w.log = [3, 2, 1, 0] ∧
    sentK (run {} busy).w.log = [.close, .ping, .message, .pong, .pong, .ping, .message] := by decide

/-- The transport fails with a message in flight and a ping queued: both are aborted, the close frame is sent. -/
def failing : List Choice :=
  [A (.call .read), A .ret, A (.call (.first 5 [2, 3] true true)), A (.call (.ping [1])), A .fail, A .ret, A .ret, A .ret, A .ret, A .ret, A .ret, A .ret]

set_option maxRecDepth 20000 in
example : okRun {} failing = true ∧ Clean (run {} failing) ∧ (run {} failing).w.ub = false ∧ (run {} failing).stack = [] ∧
    (run {} failing).w.closedByError = true ∧ (run {} failing).w.closes = 0 ∧
    completedR (run {} failing).w.log = [(1, .aborted), (0, .aborted)] ∧ sentK (run {} failing).w.log = [.close, .message] := by decide

/-! ### C24 is false in general -/

/-- A ping of the peer while the user's pong is being written: the handler of the user's pong is never called. -/
theorem pong_handler_lost : ∃ cs, let s := run {} cs
    s.w.ub = false ∧ s.stack = [] ∧ s.w.pend = false ∧ s.w.closes = 0 ∧ s.w.closedByError = false ∧ 0 ∈ acceptedT s.w.log ∧ 0 ∉ completedT s.w.log :=
  ⟨[A (.call .read), A .ret, A (.call (.pong [3])), A (.gotPing 4), A (.written .success), A .ret, A .ret], by decide⟩

/-- The peer closes while a message and the user's close frame are pending: the handlers are never called. -/
theorem close_forgets_handlers : ∃ cs, okRun {} cs = true ∧ let s := run {} cs
    s.w.ub = false ∧ s.stack = [] ∧ s.w.closes = 1 ∧ acceptedT s.w.log = [1, 0] ∧ completedT s.w.log = [] :=
  ⟨[A (.call .read), A .ret, A (.call (.first 5 [5] true true)), A (.call (.close 0 true)), A (.gotClose 0), A .ret, A .ret, A .ret], by decide⟩

set_option maxRecDepth 20000 in
/-- The answer to a ping cannot be written while a message is queued behind it: `message_written` uses a job that has been aborted. -/
theorem pong_failure_ub : ∃ cs, okRun {} cs = true ∧ (run {} cs).w.selfClose = false ∧ (run {} cs).w.ub = true :=
  ⟨[A (.call .read), A (.gotPing 4), A .ret, A (.call (.first 5 [5] true true)), A (.written .failed), A .ret, A .ret, A .ret, A .ret, A .ret], by decide⟩

set_option maxRecDepth 20000 in
/-- The peer's close frame is read by `pong_frame_written` after the user has closed: `message_written` goes on with a websocket that is gone. -/
theorem use_after_close : ∃ cs, okRun {} cs = true ∧ (run {} cs).w.closedByError = false ∧ (run {} cs).w.closes = 1 ∧ (run {} cs).w.ub = true :=
  ⟨[A (.call .read), A (.gotPing 1), A .ret, A (.call (.close 0 true)), A (.written .success), A (.gotClose 0), A .ret, A .ret, A .ret], by decide⟩

/-- A message queued behind another frame is announced with the size of its first chunk, not with the frame length asked for. -/
theorem announced_length_wrong : ∃ cs, okRun {} cs = true ∧ let l := (run {} cs).w.log
    .accepted 1 .message [5] false 2 true 10 ∈ l ∧ .sent .message (.user 1) false 2 true 5 [.usr 5] ∈ l :=
  ⟨[A (.call (.ping [])), A (.call (.first 10 [5] true true)), A (.written .success), A .ret, A .ret], by decide⟩

/-- The user's buffer has lost its first element when the handler of a further chunk is called. -/
theorem further_chunk_chain_lost : ∃ cs, okRun {} cs = true ∧ let l := (run {} cs).w.log
    .accepted 1 .message [2, 3] true 2 true 0 ∈ l ∧ .completed 1 .success [.usr 3] ∈ l :=
  ⟨[A (.call (.first 10 [5] true true)), A (.written .success), A .ret, A .ret, A (.call (.cont [2, 3])), A (.written .success)], by decide⟩

/-- The user's buffer still has the header in it when the handler of an aborted write is called. -/
theorem aborted_chain_keeps_header : ∃ cs, okRun {} cs = true ∧ .completed 0 .aborted [.hdr, .usr 5] ∈ (run {} cs).w.log :=
  ⟨[A (.call .read), A .ret, A (.call (.first 5 [5] true true)), A .fail, A .ret], by decide⟩

/-! ### C23 is false in general -/

set_option maxRecDepth 20000 in
/-- The connection fails after the user's close frame was written: two close frames, and closed twice. -/
theorem closed_twice : ∃ cs, okRun {} cs = true ∧ let s := run {} cs
    s.w.closes = 2 ∧ (sentK s.w.log).count .close = 2 :=
  ⟨[A (.call .read), A .ret, A (.call (.close 0 true)), A (.written .success), A .ret, A .ret, A .ret, A .fail, A .ret, A .ret, A .ret, A (.written .success),
    A .ret, A .ret, A .ret, A .ret, A .timer, A .ret], by decide⟩

/-- A message is sent after the user's close frame. -/
theorem message_after_close_frame : ∃ cs, okRun {} cs = true ∧ sentK (run {} cs).w.log = [.message, .close] :=
  ⟨[A (.call (.close 0 true)), A (.written .success), A .ret, A .ret, A .ret, A (.call (.first 5 [5] true true))], by decide⟩

/-- `cio_websocket_close` is accepted a second time. -/
theorem second_close_accepted : ∃ cs, (run {} cs).w.closedByError = false ∧ sentK (run {} cs).w.log = [.close, .close] :=
  ⟨[A (.call (.close 0 true)), A (.written .success), A .ret, A .ret, A .ret, A (.call (.close 0 true))], by decide⟩

set_option maxRecDepth 20000 in
/-- A ping of the peer while the user's close frame is being written: a second close frame. -/
theorem ping_while_closing : ∃ cs, okRun {} cs = true ∧ sentK (run {} cs).w.log = [.close, .close] :=
  ⟨[A (.call .read), A .ret, A (.call (.close 0 true)), A (.gotPing 1), A (.written .success), A .ret, A .ret, A .ret, A .ret, A .ret], by decide⟩

end Cio.WsQueue
