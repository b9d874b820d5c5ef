import Verif.Common
/-
Model of the timers of the Linux port, /repo/lib/src/platform/linux/timer.c, for one timer object.

The handlers are user code which can call the timer functions again, from within.  The model is a small-step machine with an explicit
stack: user code on top of the stack may make any call (`Move`), a call may in turn start a handler.
-/
namespace Cio.Timer

/-- `NSECONDS_IN_SECONDS`, timer.c 43. -/
def nsecondsInSeconds : BitVec 64 := 1000000000#64

/-- `convert_timeoutns_to_itimerspec`, timer.c 45-52: `it_value.tv_sec` and `it_value.tv_nsec` (`time_t` and `long` have 64 bits; both
conversions are to signed types of the same size). -/
def convert (timeout : BitVec 64) : BitVec 64 × BitVec 64 :=
  let seconds := timeout / nsecondsInSeconds
  let nanos := timeout - seconds * nsecondsInSeconds
  (seconds, nanos)

/-- The timerfd in the kernel: disarmed, running for arming number `t`, or expired (readable). -/
inductive Kern where
  | idle
  | armed (t : Nat)
  | expired (t : Nat)
  deriving DecidableEq, Repr

/-- What is still to be done, innermost first. -/
inductive Item where
  | user (aborted : Bool)   -- user code; `aborted` marks a handler that was told CIO_OPERATION_ABORTED
  | afterCancel             -- timer.c 144: `timer->handler = NULL`
  | afterClose              -- timer.c 159-162: closing the descriptor and calling the close hook
  deriving DecidableEq, Repr

inductive Obs where
  | armed (t : Nat) (ok : Bool)        -- `cio_timer_expires_from_now` was called (arming number `t`) and did (not) succeed
  | cancel (ok : Bool)                 -- `cio_timer_cancel` was called and did (not) succeed
  | close                              -- `cio_timer_close` was called
  | expired (t : Nat)                  -- the time of arming `t` has passed
  | handler (t : Nat) (err : Err)      -- the handler given with arming `t` is called
  | hook                               -- the close hook is called
  deriving DecidableEq, Repr

/-- `struct cio_timer`; `handler` is the number of the arming that set it (`none` is NULL), `inLoop` says that the notifier is in the
event loop, `alive` that the object exists (the close hook may free it). -/
structure St where
  handler : Option Nat
  kern : Kern
  inLoop : Bool
  alive : Bool
  next : Nat
  stack : List Item
  ub : Bool
  log : List Obs
  deriving DecidableEq, Repr

/-- What can happen next. -/
inductive Move where
  | enter                                                         -- the event loop runs some other user code
  | leave                                                         -- the user code on top of the stack returns
  | arm (timeout : BitVec 64) (ok : Bool) (soon : Bool)           -- user code arms the timer; `ok`: timerfd_settime succeeds, `soon`: it expires before it is read
  | cancel (ok : Bool)                                            -- user code cancels the timer; `ok`: timerfd_settime succeeds
  | close (ok : Bool)                                             -- user code closes the timer
  | expire                                                        -- time passes
  | event (fail : Option Err)                                     -- the event loop calls `timer_read`; `fail`: read(2) fails with this error (not EAGAIN)
  | continue                                                      -- the library code on top of the stack goes on
  deriving DecidableEq, Repr

/-- `timer_read`, timer.c 54-78, with CIO_EPOLL_SUCCESS (the event loop passes nothing else, epoll.c 201). -/
def timerRead (s : St) (fail : Option Err) : St :=
  match fail with
  | some e =>
    match s.handler with
    | none => { s with ub := true }
    | some t => { s with log := s.log ++ [.handler t e], stack := .user false :: s.stack }
  | none =>
    match s.kern with
    | .expired _ =>
      match s.handler with
      | none => { s with ub := true }
      | some t => { s with handler := none, kern := .idle, log := s.log ++ [.handler t SUCCESS], stack := .user false :: s.stack }
    | _ => s

/-- `timerfd_settime`: a zero time disarms the timer, anything else starts it; earlier expirations are forgotten. -/
def settime (s : St) (value : BitVec 64 × BitVec 64) (t : Nat) : St :=
  { s with kern := if value.1 = 0#64 ∧ value.2 = 0#64 then .idle else .armed t }

/-- Time passes. -/
def expire (s : St) : Option St :=
  match s.kern with
  | .armed t => some { s with kern := .expired t, log := s.log ++ [.expired t] }
  | _ => none

/-- `cio_timer_expires_from_now`, timer.c 116-131. -/
def arm (s : St) (timeout : BitVec 64) (ok soon : Bool) : St :=
  let t := s.next
  let s := { s with handler := some t, next := s.next + 1, log := s.log ++ [.armed t ok] }
  if ok then
    let s := settime s (convert timeout) t
    let s := if soon then (expire s).getD s else s
    timerRead s none
  else s

/-- `cio_timer_cancel`, timer.c 133-150, up to the call of the handler. -/
def cancelCore (s : St) (ok : Bool) : St × Bool :=
  match s.handler with
  | none => (s, false)
  | some t =>
    if ok then
      ({ settime s (0#64, 0#64) t with log := s.log ++ [.handler t OPERATION_ABORTED], stack := .user true :: .afterCancel :: s.stack }, true)
    else (s, false)

def cancel (s : St) (ok : Bool) : St :=
  let r := (cancelCore s ok).2
  (cancelCore { s with log := s.log ++ [.cancel r] } ok).1

/-- `cio_timer_close`, timer.c 152-163, up to the cancellation. -/
def close (s : St) (ok : Bool) : St :=
  let s := { s with log := s.log ++ [.close], inLoop := false, stack := .afterClose :: s.stack }
  (cancelCore s ok).1

/-- One step; `none` if the move is not possible.  User code only calls the functions while the timer exists. -/
def step (s : St) (m : Move) : Option St :=
  if s.ub then none
  else
    match m, s.stack with
    | .expire, _ => expire s
    | .enter, [] => some { s with stack := [.user false] }
    | .event fail, [] => if s.inLoop then some (timerRead s fail) else none
    | .leave, .user _ :: k => some { s with stack := k }
    | .arm timeout ok soon, .user _ :: _ => if s.alive then some (arm s timeout ok soon) else none
    | .cancel ok, .user _ :: _ => if s.alive then some (cancel s ok) else none
    | .close ok, .user _ :: _ => if s.alive && s.inLoop then some (close s ok) else none
    | .continue, .afterCancel :: k =>
      some (if s.alive then { s with handler := none, stack := k } else { s with ub := true })
    | .continue, .afterClose :: k =>
      some (if s.alive then { s with alive := false, log := s.log ++ [.hook], stack := k } else { s with ub := true })
    | _, _ => none

/-- `cio_timer_init`, timer.c 80-114, when it succeeds. -/
def initial : St :=
  { handler := none, kern := .idle, inLoop := true, alive := true, next := 0, stack := [], ub := false, log := [] }

/-- A sequence of moves. -/
def run : St → List Move → Option St
  | s, [] => some s
  | s, m :: ms => (step s m).bind fun s => run s ms

end Cio.Timer
