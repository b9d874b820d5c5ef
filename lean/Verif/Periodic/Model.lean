import Verif.Timer.Model
/-
Model of the example program /repo/examples/periodic_timer.c: a timer that is armed again from its own handler, over the model of the
timers of the Linux port (Timer/Model.lean).  The wait time (`FIVE_S`) and `MAX_EXPIRATIONS` are parameters of the model.

The model has a clock.  The operating system lets a timer expire when its time has passed or later, never earlier.  The two calls of
`signal`, the two messages on stderr and the exit code are not modelled; `cio_eventloop_init` and `cio_timer_init` succeed, and
`cio_eventloop_run` ends only because it is cancelled.
-/
namespace Cio.Periodic

/-- The constants of periodic_timer.c 38 and 40. -/
structure Cfg where
  period : BitVec 64
  max : BitVec 8

/-- periodic_timer.c 38-40. -/
def example_ : Cfg := { period := 5000000000#64, max := 5#8 }

/-- How far the program is. -/
inductive Phase where
  | start        -- before the first arming, 93
  | running      -- in `cio_eventloop_run`, 99 (or still in 93)
  | ended        -- after `cio_eventloop_destroy`, 105
  deriving DecidableEq, Repr

/-- The state of the program; `pending` is the error code `handle_timeout` was just called with, `due` the time at which the
current arming may expire. -/
structure St where
  timer : Timer.St
  expirations : BitVec 8     -- `uint_fast8_t`, 39
  pending : Option Err
  now : Nat
  due : Nat
  prints : List Nat          -- when "timer expired!" was printed
  cancelled : Bool           -- `cio_eventloop_cancel` was called
  phase : Phase

/-- What can happen next. -/
inductive Act where
  | tick (d : Nat)                       -- time passes
  | expire                               -- the kernel lets the timer expire
  | first (ok : Bool) (d : Nat)          -- `main` arms the timer; `ok`: `timerfd_settime` succeeds; `d`: time until the `read` in `cio_timer_expires_from_now`
  | event (fail : Option Err)            -- the event loop calls `timer_read`; `fail`: read(2) fails with this error
  | handle (ok : Bool) (d : Nat)         -- the body of `handle_timeout`, as in `first`
  | leave                                -- `handle_timeout` returns
  | close                                -- the rest of `cio_timer_close`
  | signal                               -- SIGTERM or SIGINT, 44-48
  | stop                                 -- the event loop finds the cancellation and returns
  deriving DecidableEq, Repr

/-- The error code of a call of the handler that was just added to the log of the timer. -/
def called (before after : List Timer.Obs) : Option Err :=
  match (after.drop before.length).getLast? with
  | some (.handler _ e) => some e
  | _ => none

/-- A call of a timer function. -/
def withTimer (s : St) (t : Timer.St) : St :=
  { s with timer := t, pending := called s.timer.log t.log }

/-- `cio_timer_expires_from_now(timer, FIVE_S, handle_timeout, NULL)`, 56 and 93.  The timer expires before it is read if that takes
so long. -/
def arm (c : Cfg) (s : St) (ok : Bool) (d : Nat) : St :=
  let t := Timer.arm s.timer c.period ok (decide (c.period.toNat ≤ d))
  { withTimer s t with now := s.now + d, due := s.now + c.period.toNat }

/-- `handle_timeout`, 50-66. -/
def handleTimeout (c : Cfg) (s : St) (e : Err) (ok : Bool) (d : Nat) : St :=
  if e = SUCCESS then
    let s := { s with prints := s.prints ++ [s.now] }
    if s.expirations < c.max then
      arm c { s with expirations := s.expirations + 1 } ok d
    else
      let s := { s with expirations := s.expirations + 1 }
      -- `cio_timer_close(timer); cio_eventloop_cancel(&loop);`
      { withTimer s (Timer.close s.timer true) with cancelled := true }
  else { s with pending := none }

/-- One step; `none` if it is not possible. -/
def step (c : Cfg) (s : St) : Act → Option St
  | .tick d => if s.phase = .ended then none else some { s with now := s.now + d }
  | .expire =>
    if s.phase = .running ∧ s.due ≤ s.now then (Timer.expire s.timer).map fun t => { s with timer := t } else none
  | .first ok d =>
    if s.phase = .start then
      -- 93-97: a failure of the arming ends the program
      let s := arm c { s with timer := { s.timer with stack := [.user false] } } ok d
      some { s with phase := if ok then .running else .ended }
    else none
  | .event fail =>
    -- an error of read(2) is not 0
    if s.phase = .running ∧ s.pending = none ∧ fail ≠ some SUCCESS then
      (Timer.step s.timer (.event fail)).map fun t => withTimer s t
    else none
  | .handle ok d =>
    match s.pending with
    | some e => if s.phase = .running then some (handleTimeout c s e ok d) else none
    | none => none
  | .leave => if s.phase = .running ∧ s.pending = none then (Timer.step s.timer .leave).map fun t => { s with timer := t } else none
  | .close => if s.phase = .running ∧ s.pending = none then (Timer.step s.timer .continue).map fun t => withTimer s t else none
  | .signal => some { s with cancelled := true }
  | .stop =>
    if s.phase = .running ∧ s.timer.stack = [] ∧ s.cancelled then some { s with phase := .ended } else none

/-- The state after line 91. -/
def initial : St :=
  { timer := Timer.initial, expirations := 0#8, pending := none, now := 0, due := 0, prints := [], cancelled := false, phase := .start }

/-- A run of the program. -/
def run (c : Cfg) : St → List Act → Option St
  | s, [] => some s
  | s, a :: as => (step c s a).bind fun s => run c s as

end Cio.Periodic
