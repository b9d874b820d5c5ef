import Verif.WsQueue.Spec
/-
C21: what the theorems on answered pings say.
-/
namespace Cio.WsQueue

/-- A frame as given to the transport: further chunk of a frame?, opcode, fin, announced length, payload. -/
abbrev Frame := Bool × Nat × Bool × Nat × List Elem

/-- The answers to pings given to the transport, newest first. -/
def answersR : List Ev → List Frame
  | [] => []
  | .sent .pong .pongWritten cont op fin a p :: l => (cont, op, fin, a, p) :: answersR l
  | _ :: l => answersR l

/-- The answers to pings given to the transport, in order. -/
def answers (l : List Ev) : List Frame := (answersR l).reverse

/-- The right answer to a ping with so many bytes: one final pong frame of the same length. -/
def pongFor (n : Nat) : Frame := (false, 10, true, n, if n > 0 then [.usr n] else [])

/-- The length of the ping, if the event is a ping. -/
def pingAct : Act → List Nat
  | .gotPing n => [n]
  | _ => []

/-- The ping that arrives in this step: the peer's ping meets an outstanding read. -/
def pingOf (s : State) (c : Choice) : List Nat :=
  if s.w.ub = false ∧ s.w.reading = true ∧ s.w.closes = 0 ∧ (s.stack = [] ∨ s.stack.head? = some .input) then pingAct c.act else []

/-- An execution that keeps to the rules, with the lengths of the pings that have arrived. -/
inductive ReachP : State → List Nat → Prop where
  | init : ReachP {} []
  | step (s : State) (c : Choice) (ps : List Nat) : ReachP s ps → Allowed s c → ReachP (step s c) (ps ++ pingOf s c)

theorem ReachP.reach {s : State} {ps : List Nat} (h : ReachP s ps) : Reach s := by
  induction h with
  | init => exact .init
  | step s c ps _ ha ih => exact .step s c ih ha

/-- The same with the bytes.  `buf` is `ws_private.ping_buffer.buffer` as far as it was filled by the last ping (`memcpy` in `handle_ping_frame`, websocket.c 494-500),
`got` are the payloads of the pings that arrived, `sent` those of the answers: what is in the buffer when the answer is given to the transport. -/
inductive ReachB : State → List UInt8 → List (List UInt8) → List (List UInt8) → Prop where
  | init : ReachB {} [] [] []
  | other (s : State) (c : Choice) (buf : List UInt8) (got sent : List (List UInt8)) : ReachB s buf got sent → Allowed s c → pingOf s c = [] →
      ReachB (step s c) buf got (sent ++ ((answers (step s c).w.log).drop (answers s.w.log).length).map fun f => buf.take f.2.2.2.1)
  | ping (s : State) (c : Choice) (buf bs : List UInt8) (got sent : List (List UInt8)) : ReachB s buf got sent → Allowed s c → pingOf s c = [bs.length] →
      ReachB (step s c) bs (got ++ [bs]) (sent ++ ((answers (step s c).w.log).drop (answers s.w.log).length).map fun f => bs.take f.2.2.2.1)

end Cio.WsQueue
