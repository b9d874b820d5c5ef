import Verif.Common
/-
Model of the timers of the Zephyr port, /repo/lib/src/platform/zephyr/timer.c, for one timer object, together with what the event
loop (/repo/lib/src/platform/zephyr/eventloop.c) does with its events.

The `k_timer` of the Zephyr kernel: `k_timer_start` starts it (again), `k_timer_stop` stops it and calls the function `stop` only if it
was running, and when the time has passed the function `expire` is called in an interrupt.  The events of the timer that are in the
queue of the event loop are counted; events of other notifiers do not touch the timer.
-/
namespace Cio.Zephyr.Timer

/-- `K_MSEC(timeout_ns / 1000000)` passed to the parameter `s32_t duration` of `k_timer_start`, timer.c 90 (the fourth argument `0` of
line 90 shows that times are plain integers, as in Zephyr up to 2.2). -/
def msec (timeout : BitVec 64) : BitVec 32 := (timeout / 1000000#64).truncate 32

/-- User code that runs: called by the event loop (with success, or other code), or a handler told CIO_OPERATION_ABORTED by
`cio_timer_cancel` or by `cio_timer_close`. -/
inductive User where
  | plain
  | byCancel
  | byClose
  deriving DecidableEq, Repr

/-- What is still to be done, innermost first. -/
inductive Item where
  | user (u : User)
  | afterStop        -- the rest of `k_timer_stop`, which wakes up waiting threads and so looks at the timer
  | afterClose       -- timer.c 112-114: the close hook
  deriving DecidableEq, Repr

inductive Obs where
  | armed (t : Nat)                    -- `cio_timer_expires_from_now` was called (arming number `t`); it always succeeds
  | cancel (ok : Bool)                 -- `cio_timer_cancel` was called and did (not) succeed
  | close                              -- `cio_timer_close` was called
  | expired (t : Nat)                  -- the time of arming `t` has passed
  | handler (t : Nat) (err : Err)      -- the handler given with arming `t` is called
  | hook                               -- the close hook is called
  | purged                             -- the event loop is cancelled, which empties its queue
  deriving DecidableEq, Repr

/-- `struct cio_timer`; `handler` is the number of the arming that set it (`none` is NULL), `kern` the arming for which the `k_timer` is
running, `removed` the flag of the notifier, `alive` says that the object exists (the close hook may free it), `queued` is the number of
messages in the queue of the event loop that point to the notifier of the timer. -/
structure St where
  handler : Option Nat
  kern : Option Nat
  removed : Bool
  alive : Bool
  queued : Nat
  next : Nat
  stack : List Item
  ub : Bool
  log : List Obs
  deriving DecidableEq, Repr

/-- What can happen next. -/
inductive Move where
  | enter                          -- the event loop runs some other user code
  | leave                          -- the user code on top of the stack returns
  | arm (timeout : BitVec 64)      -- user code arms the timer
  | cancel                         -- user code cancels the timer
  | close                          -- user code closes the timer
  | expire (full : Bool)           -- time passes; `full`: there is no room in the queue
  | event                          -- the event loop takes out a message of the timer
  | purge                          -- user code cancels the event loop
  | continue                       -- the library code on top of the stack goes on
  deriving DecidableEq, Repr

/-- `expire`, timer.c 48-55, in an interrupt.  `cio_zephyr_eventloop_add_event` must not wait there. -/
def expire (s : St) (full : Bool) : Option St :=
  match s.kern with
  | none => none
  | some t =>
    if s.alive = false || full then some { s with ub := true }
    else some { s with kern := none, queued := s.queued + 1, log := s.log ++ [.expired t] }

/-- `cio_eventloop_run`, eventloop.c 54-57, and `timer_callback`, timer.c 39-46. -/
def event (s : St) : St :=
  let s := { s with queued := s.queued - 1 }
  if s.alive = false then { s with ub := true }
  else if s.removed then s
  else
    match s.handler with
    | none => { s with ub := true }
    | some t => { s with handler := none, log := s.log ++ [.handler t SUCCESS], stack := .user .plain :: s.stack }

/-- `cio_timer_expires_from_now`, timer.c 84-93.  Every duration starts the timer, zero too. -/
def arm (s : St) (_timeout : BitVec 64) : St :=
  { s with handler := some s.next, kern := some s.next, next := s.next + 1, log := s.log ++ [.armed s.next] }

/-- `k_timer_stop` and `stop`, timer.c 57-65. -/
def stop (s : St) (u : User) : St :=
  match s.kern with
  | none => s
  | some _ =>
    let s := { s with kern := none, stack := .afterStop :: s.stack }
    match s.handler with
    | none => { s with ub := true }
    | some t => { s with handler := none, log := s.log ++ [.handler t OPERATION_ABORTED], stack := .user u :: s.stack }

/-- `cio_timer_cancel`, timer.c 95-103. -/
def cancel (s : St) (u : User) : St :=
  match s.handler with
  | none => s
  | some _ => stop s u

/-- `cio_timer_close`, timer.c 105-115, up to the close hook. -/
def close (s : St) : St :=
  cancel { s with log := s.log ++ [.close], removed := true, stack := .afterClose :: s.stack } .byClose

/-- One step; `none` if the move is not possible.  User code only calls the functions while the timer exists. -/
def step (s : St) (m : Move) : Option St :=
  if s.ub then none
  else
    match m, s.stack with
    | .expire full, _ => expire s full
    | .enter, [] => some { s with stack := [.user .plain] }
    | .event, [] => if s.queued = 0 then none else some (event s)
    | .leave, .user _ :: k => some { s with stack := k }
    | .arm timeout, .user _ :: _ => if s.alive then some (arm s timeout) else none
    | .cancel, .user _ :: _ => if s.alive then some (cancel { s with log := s.log ++ [.cancel s.handler.isSome] } .byCancel) else none
    | .close, .user _ :: _ => if s.alive then some (close s) else none
    | .purge, .user _ :: _ => some { s with queued := 0, log := s.log ++ [.purged] }
    | .continue, .afterStop :: k => some (if s.alive then { s with stack := k } else { s with ub := true })
    | .continue, .afterClose :: k =>
      some (if s.alive then { s with alive := false, log := s.log ++ [.hook], stack := k } else { s with ub := true })
    | _, _ => none

/-- `cio_timer_init`, timer.c 67-82. -/
def initial : St :=
  { handler := none, kern := none, removed := false, alive := true, queued := 0, next := 0, stack := [], ub := false, log := [] }

/-- A sequence of moves. -/
def run : St → List Move → Option St
  | s, [] => some s
  | s, m :: ms => (step s m).bind fun s => run s ms

end Cio.Zephyr.Timer
