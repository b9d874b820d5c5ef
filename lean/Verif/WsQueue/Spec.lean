import Verif.WsQueue.Model
/-
What the theorems on the write queue say: observations, and the rules of use they suppose.
-/
namespace Cio.WsQueue

/-- Tickets of the writes whose handler has been called, with the result, newest first. -/
def completedR : List Ev → List (Nat × Res)
  | [] => []
  | .completed t r _ :: l => (t, r) :: completedR l
  | _ :: l => completedR l

/-- Tickets of the writes whose handler has been called, newest first. -/
def completedT (l : List Ev) : List Nat := (completedR l).map Prod.fst

/-- Tickets of the calls accepted, newest first. -/
def acceptedT : List Ev → List Nat
  | [] => []
  | .accepted t _ _ _ _ _ _ :: l => t :: acceptedT l
  | _ :: l => acceptedT l

/-- Tickets of the writes given to the transport, newest first. -/
def sentT : List Ev → List Nat
  | [] => []
  | .sent _ (.user t) _ _ _ _ _ :: l => t :: sentT l
  | _ :: l => sentT l

/-- Kinds of the frames and further chunks given to the transport, newest first. -/
def sentK : List Ev → List Kind
  | [] => []
  | .sent k _ _ _ _ _ _ :: l => k :: sentK l
  | _ :: l => sentK l

/-- Rules of use: a handler that was told of an error makes no calls; after `on_error` or the close hook the websocket is left alone;
`read_message` is called once at the start and once for each call of the read handler; a further chunk is written only when the chunk before is done;
`cio_websocket_close` is called once.  The peer's part: no ping while a pong of the user is still waiting to be sent.
A ping has at most 125 bytes: `WsRecv` does not let others through (C19). -/
def Allowed (s : State) (c : Choice) : Prop :=
  match c.act with
  | .call call => s.stack.head? ≠ some (.user true) ∧ s.w.closedByError = false ∧ s.w.closes = 0 ∧
      match call with
      | .read => s.w.turn = true
      | .cont _ => (s.w.jobs .message).wbh = none
      | .close _ _ => s.w.selfClose = false
      | _ => True
  | .gotPing n => (s.w.jobs .pong).wbh = none ∧ n ≤ 125
  | _ => True

/-- An execution that keeps to the rules. -/
inductive Reach : State → Prop where
  | init : Reach {}
  | step (s : State) (c : Choice) : Reach s → Allowed s c → Reach (step s c)

/-- The connection does not fail after the user has begun to close it (or the other way round). -/
def Clean (s : State) : Prop := ¬ (s.w.closedByError = true ∧ s.w.selfClose = true)

end Cio.WsQueue
