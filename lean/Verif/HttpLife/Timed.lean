import Verif.HttpLife.Neg
/-
The life of one HTTP connection (`Model`) in time: the two timers have deadlines, and an expiry happens not before its deadline and is handled at most `late`
behind it (what the event loop is busy with in between).

Simplifications: only waiting takes time, not the steps of the library and of user code (the time they take is part of `late`); the clock is a natural
number of nanoseconds that does not wrap.
-/
namespace Cio.HttpLife

/-- The three timeouts of `struct cio_http_server_configuration`, http_server.h, as they are kept by cio_http_server_init, http_server.c 752-754, and how late the
event loop may be. -/
structure Limits where
  header : Nat
  body : Nat
  response : Nat
  late : Nat

structure Timed where
  s : State
  now : Nat := 0
  /-- when `request_timer` expires, if it runs -/
  reqDue : Nat := 0
  /-- when `response_timer` expires, if it runs -/
  respDue : Nat := 0
  /-- (not in the code) when the server became ready for the current request -/
  since : Nat := 0
  /-- (not in the code) when the header of the current request was complete -/
  headersAt : Option Nat := none
deriving DecidableEq

inductive TChoice where
  /-- nothing happens for a while -/
  | wait (d : Nat)
  | act (c : Choice)

def Ev.isResponse : Ev → Bool
  | .response _ => true
  | _ => false

/-- How often a response was given to the stream. -/
def responses (l : List Ev) : Nat := l.countP Ev.isResponse

/-- The step made the server ready for the next request: `restart_read_request` has armed the timer, http_server.c 136-163. -/
def restarts (s s' : State) : Bool := s.w.log.count .restarted < s'.w.log.count .restarted

/-- The step gave a response to the stream: `write_response` has armed the timer, 273-283. -/
def responds (s s' : State) : Bool := responses s.w.log < responses s'.w.log

/-- The step is the end of `on_headers_complete`, 385-395, and the timer could be armed. -/
def bodyArmed (s : State) (c : Choice) : Bool :=
  match s.stack with
  | .headersEnd _ :: _ => c.arm
  | _ => false

/-- The timers are armed for `read_header_timeout_ns` (http_server.c 141 and 704), `read_body_timeout_ns` (385) and `response_timeout_ns` (273). -/
def stamp (p : Limits) (t : Timed) (c : Choice) (s' : State) : Timed :=
  { t with
    s := s'
    reqDue := if restarts t.s s' then t.now + p.header else if bodyArmed t.s c then t.now + p.body else t.reqDue
    respDue := if responds t.s s' then t.now + p.response else t.respDue
    since := if restarts t.s s' then t.now else t.since
    headersAt := if restarts t.s s' then none else if t.s.w.phase ≠ .body ∧ s'.w.phase = .body then some t.now else t.headersAt }

/-- A timer expires not before its deadline. -/
def early (t : Timed) (c : Choice) : Bool :=
  t.s.stack.isEmpty && ((c.act == .requestTimeout && t.now < t.reqDue) || (c.act == .responseTimeout && t.now < t.respDue))

/-- The library is idle, and no timer that runs would be handled too late. -/
def mayWait (p : Limits) (t : Timed) (d : Nat) : Bool :=
  t.s.stack.isEmpty && (!t.s.w.reqT.armed || t.now + d ≤ t.reqDue + p.late) && (!t.s.w.respT.armed || t.now + d ≤ t.respDue + p.late)

def tstep (p : Limits) (t : Timed) : TChoice → Option Timed
  | .wait d => if mayWait p t d then some { t with now := t.now + d } else none
  | .act c =>
    if early t c then none
    else match step t.s c with
      | some s' => some (stamp p t c s')
      | none => none

/-- The connection was accepted at time 0, http_server.c 704. -/
def tinit (p : Limits) : Timed := { s := init, reqDue := p.header }

def trun (p : Limits) (t : Timed) : List TChoice → Option Timed
  | [] => some t
  | c :: cs => match tstep p t c with
    | some t' => trun p t' cs
    | none => none

/-- What happens besides waiting. -/
def acts : List TChoice → List Choice
  | [] => []
  | .wait _ :: l => acts l
  | .act c :: l => c :: acts l

/-- The header of a request that asks for an upgrade is complete. -/
def Act.asksUpgrade : Act → Bool
  | .onHeaders _ true _ _ => true
  | _ => false

end Cio.HttpLife
