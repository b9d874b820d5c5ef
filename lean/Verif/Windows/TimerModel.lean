import Verif.Common
/-
Model of the timers of the Windows port, /repo/lib/src/platform/windows/timer.c, for one timer object, together with what the event loop
(/repo/lib/src/platform/windows/iocp.c) does with its packets.

The timer queue of Windows is the environment: `CreateTimerQueueTimer` starts a timer and stores its handle before the timer can fire;
when the time has passed a thread of the pool calls `timer_callback`, which runs concurrently with the thread of the loop (`Move.fire` is
its beginning, `Move.finish` its end); `DeleteTimerQueueTimer` succeeds for a timer that has not fired and fails if the callback is
running (ERROR_IO_PENDING) or if there is no handle.  Each arming gets a number.
-/
namespace Cio.Windows.Timer

/-- `(DWORD)(timeout_ns / 1000000)`, timer.c 111. -/
def msec (timeout : BitVec 64) : BitVec 32 := (timeout / 1000000#64).truncate 32

/-- The member `handler`: not initialised (`cio_timer_init` does not set it), NULL, or the handler given with an arming. -/
inductive Handler where
  | junk
  | null
  | set (t : Nat)
  deriving DecidableEq, Repr

/-- User code that runs: called by the event loop (with success, or other code), or a handler told CIO_OPERATION_ABORTED by
`cio_timer_cancel` or by `cio_timer_close`. -/
inductive User where
  | plain
  | byCancel
  | byClose
  deriving DecidableEq, Repr

/-- What is still to be done, innermost first. -/
inductive Item where
  | user (u : User)
  | afterCancel      -- timer.c 77: `t->handler = NULL`
  | afterClose       -- timer.c 90-92: the close hook
  deriving DecidableEq, Repr

inductive Obs where
  | armed (t : Nat)                    -- `cio_timer_expires_from_now` succeeded (arming number `t`)
  | refused (t : Nat)                  -- `cio_timer_expires_from_now` returned an error
  | cancel (ok : Bool)                 -- `cio_timer_cancel` was called and did (not) succeed
  | close                              -- `cio_timer_close` was called
  | expired (t : Nat)                  -- the time of arming `t` has passed
  | handler (t : Nat) (err : Err)      -- the handler given with arming `t` is called
  | hook                               -- the close hook is called
  deriving DecidableEq, Repr

/-- `struct cio_timer`; `hEvent` is the handle in `impl.ev.overlapped` (the number of the arming that created it), `live` the arming whose
timer is running, `firing` the arming for which a thread of the pool is in `timer_callback`, `queued` the number of packets of this timer
in the completion port, `alive` says that the object exists (the close hook may free it). -/
structure St where
  handler : Handler
  hEvent : Option Nat
  live : Option Nat
  firing : Option Nat
  queued : Nat
  alive : Bool
  next : Nat
  stack : List Item
  ub : Bool
  log : List Obs
  deriving DecidableEq, Repr

/-- What can happen next. -/
inductive Move where
  | enter                                      -- the event loop runs some other user code
  | leave                                      -- the user code on top of the stack returns
  | arm (timeout : BitVec 64) (ok : Bool)      -- user code arms the timer; `ok`: CreateTimerQueueTimer succeeds
  | cancel                                     -- user code cancels the timer
  | close                                      -- user code closes the timer
  | fire                                       -- time passes; a thread of the pool enters `timer_callback`
  | finish                                     -- that thread has executed `timer_callback`
  | event                                      -- the event loop takes out a packet of the timer
  | continue                                   -- the library code on top of the stack goes on
  deriving DecidableEq, Repr

/-- `timer_callback`, timer.c 36-45: deleting the timer from inside of its callback has no effect on the rest; its result is ignored. -/
def finish (s : St) : Option St :=
  match s.firing with
  | none => none
  | some _ =>
    if s.alive then some { s with firing := none, hEvent := none, queued := s.queued + 1 }
    else some { s with ub := true }

/-- `cio_eventloop_run`, iocp.c 109-110, and `timer_event_callback`, timer.c 47-54. -/
def event (s : St) : St :=
  let s := { s with queued := s.queued - 1 }
  if s.alive = false then { s with ub := true }
  else
    match s.handler with
    | .junk | .null => { s with ub := true }
    | .set t => { s with handler := .null, log := s.log ++ [.handler t SUCCESS], stack := .user .plain :: s.stack }

/-- `cio_timer_expires_from_now`, timer.c 111-116: the new timer. -/
def create (s : St) (t : Nat) (ok : Bool) : St :=
  if ok then { s with hEvent := some t, live := some t, log := s.log ++ [.armed t] }
  else { s with log := s.log ++ [.refused t] }

/-- `cio_timer_expires_from_now`, timer.c 95-117. -/
def arm (s : St) (_timeout : BitVec 64) (ok : Bool) : St :=
  let t := s.next
  let s := { s with handler := .set t, next := s.next + 1 }
  match s.hEvent with
  | none => create s t ok
  | some h =>
    if s.live = some h then create { s with live := none } t ok
    else if s.firing = some h then { s with log := s.log ++ [.refused t] }
    else { s with ub := true }

/-- `cio_timer_cancel`, timer.c 67-82, when a handler is set; `note ok` is what can be observed of the call. -/
def cancelSet (s : St) (t : Nat) (u : User) (note : Bool → List Obs) : St :=
  match s.hEvent with
  | none => { s with log := s.log ++ note false }
  | some h =>
    if s.live = some h then
      { s with live := none, hEvent := none, log := s.log ++ note true ++ [.handler t OPERATION_ABORTED], stack := .user u :: .afterCancel :: s.stack }
    else if s.firing = some h then { s with log := s.log ++ note false }
    else { s with ub := true }

/-- `cio_timer_cancel`, timer.c 67-82. -/
def cancel (s : St) : St :=
  match s.handler with
  | .junk => { s with ub := true }
  | .null => { s with log := s.log ++ [.cancel false] }
  | .set t => cancelSet s t .byCancel fun ok => [.cancel ok]

/-- `cio_timer_close`, timer.c 84-93, up to the close hook. -/
def close (s : St) : St :=
  match s.handler with
  | .junk => { s with ub := true }
  | .null => { s with log := s.log ++ [.close], stack := .afterClose :: s.stack }
  | .set t => cancelSet { s with log := s.log ++ [.close], stack := .afterClose :: s.stack } t .byClose fun _ => []

/-- One step; `none` if the move is not possible.  User code only calls the functions while the timer exists. -/
def step (s : St) (m : Move) : Option St :=
  if s.ub then none
  else
    match m, s.stack with
    | .fire, _ =>
      match s.live with
      | none => none
      | some t => some { s with live := none, firing := some t, log := s.log ++ [.expired t] }
    | .finish, _ => finish s
    | .enter, [] => some { s with stack := [.user .plain] }
    | .event, [] => if s.queued = 0 then none else some (event s)
    | .leave, .user _ :: k => some { s with stack := k }
    | .arm timeout ok, .user _ :: _ => if s.alive then some (arm s timeout ok) else none
    | .cancel, .user _ :: _ => if s.alive then some (cancel s) else none
    | .close, .user _ :: _ => if s.alive then some (close s) else none
    | .continue, .afterCancel :: k => some (if s.alive then { s with handler := .null, stack := k } else { s with ub := true })
    | .continue, .afterClose :: k =>
      some (if s.alive then { s with alive := false, log := s.log ++ [.hook], stack := k } else { s with ub := true })
    | _, _ => none

/-- `cio_timer_init`, timer.c 56-65. -/
def initial : St :=
  { handler := .junk, hEvent := none, live := none, firing := none, queued := 0, alive := true, next := 0, stack := [], ub := false, log := [] }

/-- A sequence of moves. -/
def run : St → List Move → Option St
  | s, [] => some s
  | s, m :: ms => (step s m).bind fun s => run s ms

end Cio.Windows.Timer
