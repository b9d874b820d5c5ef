import Verif.WsQueue.Model
/-
The program /repo/examples/websocket_server.c, one connection of it, on top of the model of a WebSocket (`WsQueue`): the program makes the calls, the
environment (peer, transport, timers) does everything else.

Simplifications:
* what is printed is not modelled; "Hello World!" and "ping" are seen by their lengths, 12 and 4 (content: `WsSend`);
* the ping timer is a flag (armed or not); that it expires after a second, and only then: `Timer`;
* the HTTP part of the program (lines 252-367) is `HttpConn`, `HttpLife`;
* a read that fails at once is seen as a read that fails next, as in `WsQueue`.
-/
namespace Cio.WsExample
open Cio.WsQueue

/-- One connection: the websocket and what the program remembers about it. -/
structure Prog where
  q : State := {}
  /-- the read handler runs and has not yet written its answer -/
  owes : Bool := false
  /-- `is_binary` of the read handler -/
  binary : Bool := false
  /-- the ping timer is armed -/
  armed : Bool := false
  /-- (not in the code) number of calls of `cio_websocket_close` refused -/
  refused : Nat := 0

/-- `cio_websocket_close(websocket, ..., NULL, NULL)`, as in lines 81, 90, 118, 131, 133, 215 and 226 of the program: websocket.c 880-883 refuses a
call without a handler before anything else is done. -/
def closeNull (p : Prog) : Prog := { p with refused := p.refused + 1 }

/-- `on_connect`, websocket_server.c 203-233: `initOk` is the result of `cio_timer_init`, `armOk` that of `cio_timer_expires_from_now`. -/
def onConnect (initOk armOk : Bool) : Prog :=
  if initOk = false then closeNull {}
  else if armOk = false then closeNull {}
  else { q := step {} ⟨.call .read, .later⟩, armed := true }

/-- `ping_written`, websocket_server.c 75-97: `armOk` is the result of `cio_timer_expires_from_now`. -/
def pingWritten (p : Prog) (res : Res) (armOk : Bool) : Prog :=
  if res ≠ .success then closeNull p
  else if armOk then { p with armed := true } else closeNull p

/-- `write_complete`, websocket_server.c 124-139: both ways end in `cio_websocket_close` without a handler. -/
def writeComplete (p : Prog) : Prog := closeNull p

/-- (not in the code) Which job an accepted call was for. -/
def kindOf : List Ev → Nat → Option Kind
  | [], _ => none
  | .accepted t k _ _ _ _ _ :: l, t' => if t = t' then some k else kindOf l t'
  | _ :: l, t' => kindOf l t'

/-- The websocket has done something: if it called a write handler, the handler does what it does.  (That a write handler is called in a step is seen
from the log: it is the last thing that happens in the step.) -/
def settle (p : Prog) (q' : State) (armOk : Bool) : Prog :=
  if q'.w.log.length = p.q.w.log.length then { p with q := q' }
  else
    match q'.w.log with
    | .completed t res _ :: _ =>
      match kindOf q'.w.log t with
      | some .ping => pingWritten { p with q := q' } res armOk
      | _ => writeComplete { p with q := q' }
    | _ => { p with q := q' }

/-- What happens next outside of the program: the ping timer expires (or fails), or something happens to the websocket. -/
inductive What where
  | ping (ok : Bool)
  | other (a : Act)
deriving DecidableEq, Repr

/-- One event; `tr` says what the transport does with a write started now, `armOk` whether a timer can be armed now, `binary` the type of a message
received. -/
structure Event where
  what : What
  tr : Outcome := .now .success
  armOk : Bool := true
  binary : Bool := false

/-- The first event of the peer that an outstanding read takes: the read handler is called with data. -/
def hears (p : Prog) (a : Act) : Bool := a == .gotData && p.q.w.reading && p.q.w.closes == 0

/-- Something happens to the websocket. -/
def outside (p : Prog) (a : Act) (e : Event) : Prog :=
  match a with
  | .call _ => p
  | .gotPing n => if n ≤ 125 then settle p (step p.q ⟨.gotPing n, e.tr⟩) e.armOk else p
  | a => if hears p a then { settle p (step p.q ⟨a, e.tr⟩) e.armOk with owes := true, binary := e.binary } else settle p (step p.q ⟨a, e.tr⟩) e.armOk

/-- One step of the program.
* the event loop is idle: the ping timer expires (`send_ping`, websocket_server.c 99-122), or something happens to the websocket;
* a handler of the program runs: `read_handler` 175-201 writes "Hello World!" and returns, the others return;
* the buffered stream delivers what it has: something arrives or not;
* code of the library goes on. -/
def appStep (p : Prog) (e : Event) : Prog :=
  match p.q.stack with
  | [] =>
    match e.what with
    | .ping ok =>
      if p.armed ∧ p.q.w.closes = 0 then
        if ok then settle { p with armed := false } (step p.q ⟨.call (.ping [4]), e.tr⟩) e.armOk else closeNull { p with armed := false }
      else p
    | .other a => outside p a e
  | .user _ :: _ =>
    if p.owes then settle { p with owes := false } (step p.q ⟨.call (.first 12 [12] true p.binary), e.tr⟩) e.armOk
    else settle p (step p.q ⟨.ret, e.tr⟩) e.armOk
  | .input :: _ =>
    match e.what with
    | .ping _ => p
    | .other a => outside p a e
  | _ => settle p (step p.q ⟨.ret, e.tr⟩) e.armOk

def appRun (p : Prog) (es : List Event) : Prog := es.foldl appStep p

/-- A state of the program after it has begun to serve the connection. -/
inductive Reachable : Prog → Prop where
  | connect (initOk armOk : Bool) : Reachable (onConnect initOk armOk)
  | step (p : Prog) (e : Event) : Reachable p → Reachable (appStep p e)

/-! ### What is claimed -/

/-- Number of "Hello World!" messages the library has accepted. -/
def hellos : List Ev → Nat
  | [] => 0
  | .accepted _ .message _ _ _ _ _ :: l => hellos l + 1
  | _ :: l => hellos l

/-- The library still holds the pointer to the write buffer of a ping when `send_ping`, whose local variable the head of that buffer is, has returned
(websocket_server.c 109-114). -/
def Dangling (p : Prog) : Prop := p.q.stack = [] ∧ (p.q.w.jobs .ping).wbh.isSome = true

/-- Something the peer does, or that happens to the connection while reading. -/
def isPeer : Act → Bool
  | .gotData => true
  | .gotPing _ => true
  | .gotPong => true
  | .gotClose _ => true
  | .fail => true
  | _ => false

end Cio.WsExample
