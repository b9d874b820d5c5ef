import Verif.Common
/-
Model of the event loop of the Zephyr port, /repo/lib/src/platform/zephyr/eventloop.c.

The loop is a queue of messages (`k_msgq`), each pointing to a notifier.  Notifiers are numbers.  Events are queued by interrupt
handlers and other threads (`Move.irq`) or by code that runs in the thread of the loop (`Move.add`); `cio_eventloop_run` takes them
out and calls the callbacks, which are user code and may do anything, in any order.
-/
namespace Cio.Zephyr.Loop

/-- `struct cio_ev_msg`, eventloop_impl.h 59-61: a pointer to a notifier, which is either one of the users' or `stop_ev`. -/
inductive Msg where
  | ev (n : Nat)
  | stop
  deriving DecidableEq, Repr

/-- `CIO_ZEPHYR_EVENTLOOP_MSG_QUEUE_SIZE`, eventloop_impl.h 63. -/
def queueSize : Nat := 10

/-- What can be observed from outside. -/
inductive Obs where
  | init (n : Nat)         -- `cio_zephyr_ev_init(n)`
  | remove (n : Nat)       -- `cio_zephyr_eventloop_remove_event(n)`
  | add (n : Nat)          -- an event of `n` was queued
  | cancel                 -- `cio_eventloop_cancel`
  | start                  -- `cio_eventloop_run` is called
  | call (n : Nat)         -- the callback of `n` is called
  | done (e : Err)         -- `cio_eventloop_run` returned `e`
  deriving DecidableEq, Repr

/-- Where the thread of the loop is: outside of `cio_eventloop_run` (user code), in `k_msgq_get`, in a callback, or waiting in
`k_msgq_put` for room, inside of a callback or outside of `cio_eventloop_run`. -/
inductive Thread where
  | outside
  | waiting
  | inside
  | stuck (m : Msg) (inRun : Bool)
  deriving DecidableEq, Repr

/-- `struct cio_eventloop` and the flags `removed` of the notifiers.  `ub` records a wait in an interrupt handler. -/
structure St where
  queue : List Msg
  removed : Nat → Bool
  thread : Thread
  ub : Bool
  log : List Obs

/-- Moves. -/
inductive Move where
  | irq (n : Nat)        -- an interrupt handler queues an event
  | add (n : Nat)        -- user code of the thread of the loop queues an event
  | init (n : Nat)       -- user code initialises a notifier
  | remove (n : Nat)     -- user code removes a notifier
  | cancel (burst : List Nat) -- user code cancels the loop; interrupt handlers queue the events `burst` meanwhile
  | start                -- user code calls `cio_eventloop_run`
  | leave                -- the callback returns
  | get                  -- `k_msgq_get` returns
  deriving DecidableEq, Repr

/-- The thread is running user code. -/
def Thread.user : Thread → Bool
  | .outside | .inside => true
  | _ => false

/-- `cio_zephyr_eventloop_add_event`, eventloop.c 72-76, in the thread of the loop: `k_msgq_put` with K_FOREVER waits for room.  Only
the thread of the loop takes messages out of the queue. -/
def put (s : St) (m : Msg) : St :=
  if s.queue.length < queueSize then { s with queue := s.queue ++ [m] }
  else { s with thread := .stuck m (s.thread = .inside) }

/-- An interrupt handler queues an event.  It must not wait. -/
def irq (s : St) (n : Nat) : St :=
  if s.queue.length < queueSize then { s with queue := s.queue ++ [.ev n], log := s.log ++ [.add n] }
  else { s with ub := true }

/-- `cio_eventloop_cancel`, eventloop.c 66-70.  Between `k_msgq_purge` and `k_msgq_put` interrupts can happen. -/
def cancel (s : St) (burst : List Nat) : St :=
  put (burst.foldl irq { s with queue := [], log := s.log ++ [.cancel] }) .stop

/-- One iteration of the loop of `cio_eventloop_run`, eventloop.c 52-60, after `k_msgq_get` has found the message `m`. -/
def iterate (s : St) (m : Msg) : St :=
  match m with
  | .stop => { s with thread := .outside, log := s.log ++ [.done SUCCESS] }
  | .ev n =>
    if s.removed n then s
    else { s with thread := .inside, log := s.log ++ [.call n] }

/-- One step; `none` if the move is not possible. -/
def step (s : St) (m : Move) : Option St :=
  if s.ub then none
  else
    match m with
    | .irq n => some (irq s n)
    | .add n => if s.thread.user then some (put { s with log := s.log ++ [.add n] } (.ev n)) else none
    | .init n => if s.thread.user then some { s with removed := fun x => if x = n then false else s.removed x, log := s.log ++ [.init n] } else none
    | .remove n => if s.thread.user then some { s with removed := fun x => if x = n then true else s.removed x, log := s.log ++ [.remove n] } else none
    | .cancel burst => if s.thread.user then some (cancel s burst) else none
    | .start => if s.thread = .outside then some { s with thread := .waiting, log := s.log ++ [.start] } else none
    | .leave => if s.thread = .inside then some { s with thread := .waiting } else none
    | .get =>
      match s.thread, s.queue with
      | .waiting, m :: q => some (iterate { s with queue := q } m)
      | _, _ => none

/-- `cio_eventloop_init`, eventloop.c 38-43; the notifiers are not initialised. -/
def initial (removed : Nat → Bool) : St := { queue := [], removed := removed, thread := .outside, ub := false, log := [] }

/-- A sequence of moves. -/
def run : St → List Move → Option St
  | s, [] => some s
  | s, m :: ms => (step s m).bind fun s => run s ms

end Cio.Zephyr.Loop
