import Verif.Common
/-
Model of the event loop of the Linux port, /repo/lib/src/platform/linux/epoll.c.

Notifiers (`struct cio_event_notifier`) are objects of a heap addressed by numbers; number 0 is `loop->stop_ev`.  The code of the
callbacks is unknown: a callback is given by the sequence of event loop calls it makes, which may depend on everything that
happened before (`Env`).  What `epoll_wait` reports is unknown as well, see `kernelWait`.
-/
namespace Cio.Epoll

/-- The events of `struct epoll_event` the loop looks at: EPOLLIN, EPOLLOUT, and EPOLLERR or EPOLLHUP. -/
structure Ev where
  input : Bool
  output : Bool
  error : Bool
  deriving DecidableEq, Repr

/-- Calls a callback can make.  The flag says whether `epoll_ctl` succeeds. -/
inductive Op where
  | add (n : Nat) (ok : Bool)
  | registerRead (n : Nat) (ok : Bool)
  | unregisterRead (n : Nat) (ok : Bool)
  | registerWrite (n : Nat) (ok : Bool)
  | unregisterWrite (n : Nat) (ok : Bool)
  | remove (n : Nat)
  | cancel
  deriving DecidableEq, Repr

/-- What can be observed from outside. -/
inductive Obs where
  | wait (batch : List (Nat × Ev))     -- `epoll_wait` returned these events
  | read (n : Nat)                     -- the read callback of `n` is called (with CIO_EPOLL_SUCCESS)
  | write (n : Nat) (error : Bool)     -- the write callback of `n` is called
  | op (o : Op)                        -- a callback made this call
  deriving DecidableEq, Repr

abbrev Log := List Obs

/-- `struct cio_event_notifier`: `alive` says that the object exists (as soon as a notifier was removed it may have been freed, so
it is taken to be gone), `inKernel` that it is in the interest list of the epoll instance. -/
structure Notifier where
  alive : Bool
  inKernel : Bool
  regIn : Bool
  regOut : Bool

/-- `struct cio_eventloop` plus the heap and the log.  `ub` records an access to an object that does not exist. -/
structure St where
  heap : Nat → Notifier
  events : Nat → Nat × Ev
  num : Nat
  counter : Nat
  current : Option Nat
  log : Log
  ub : Bool

/-- The behaviour of the callbacks: the calls made by a callback, given the log that ends with its call. -/
abbrev Env := Log → List Op

def setN (s : St) (n : Nat) (f : Notifier → Notifier) : St :=
  { s with heap := fun x => if x = n then f (s.heap x) else s.heap x }

/-- The loop of `erase_pending_event`, epoll.c 45-51: `k` positions are left to be looked at, `i` is the next one. -/
def eraseLoop (s : St) (n : Nat) : Nat → Nat → St
  | 0, _ => s
  | k + 1, i =>
    if (s.events i).1 = n then
      -- memmove(&epoll_events[i], &epoll_events[i + 1], (num_events - (i + 1)) * sizeof)
      { s with events := fun j => if i ≤ j ∧ j < i + (s.num - (i + 1)) then s.events (j + 1) else s.events j, num := s.num - 1 }
    else eraseLoop s n k (i + 1)

/-- `erase_pending_event`, epoll.c 43-52. -/
def erasePending (s : St) (n : Nat) : St := eraseLoop s n (s.num - (s.counter + 1)) (s.counter + 1)

/-- `cio_linux_eventloop_remove`, epoll.c 153-160.  The caller is free to release the object afterwards. -/
def remove (s : St) (n : Nat) : St :=
  let s := erasePending (setN s n fun e => { e with inKernel := false }) n
  let s := if s.current = some n then { s with current := none } else s
  setN s n fun e => { e with alive := false }

/-- Which calls a callback may make: a notifier has to be initialised and not yet in the loop to be added, and it has to be in the
loop for the others; the loop's own notifier is not touched. -/
def legal (s : St) : Op → Bool
  | .add n _ => n ≠ 0 && !(s.heap n).inKernel
  | .registerRead n _ | .unregisterRead n _ | .registerWrite n _ | .unregisterWrite n _ | .remove n => n ≠ 0 && (s.heap n).inKernel
  | .cancel => true

/-- epoll.c 115-160, 213-218.  `cio_eventloop_cancel` only makes the stop notifier readable. -/
def applyOp (s : St) : Op → St
  | .add n ok => setN s n fun _ => { alive := true, inKernel := ok, regIn := false, regOut := false }
  | .registerRead n _ => setN s n fun e => { e with regIn := true }
  | .unregisterRead n _ => setN s n fun e => { e with regIn := false }
  | .registerWrite n _ => setN s n fun e => { e with regOut := true }
  | .unregisterWrite n _ => setN s n fun e => { e with regOut := false }
  | .remove n => remove s n
  | .cancel => s

/-- A legal call is executed and logged, others are not made. -/
def doOp (s : St) (o : Op) : St :=
  if legal s o then applyOp { s with log := s.log ++ [.op o] } o else s

/-- A callback: it is logged, then its calls are executed. -/
def callback (env : Env) (s : St) (o : Obs) : St :=
  let s := { s with log := s.log ++ [o] }
  (env s.log).foldl doOp s

/-- Reading a field of a notifier. -/
def access (s : St) (n : Nat) : St := { s with ub := s.ub || !(s.heap n).alive }

/-- `handle_removed_ev`, epoll.c 162-173. -/
def handleRemoved (env : Env) (s : St) (n : Nat) (e : Ev) : St :=
  if s.current.isSome then
    let s := access s n
    if e.output && (s.heap n).regOut then
      callback env (setN s n fun e => { e with regOut := false }) (.write n e.error)
    else s
  else s

/-- The body of the for loop, epoll.c 190-204; the flag says that the loop was left through `goto out`. -/
def body (env : Env) (s : St) : St × Bool :=
  let (n, e) := s.events s.counter
  if n = 0 then (s, true)
  else
    let s := access { s with current := some n } n
    let s := if e.input && (s.heap n).regIn then callback env s (.read n) else s
    let s := handleRemoved env s n e
    ({ s with counter := s.counter + 1 }, false)

/-- The for loop, epoll.c 189-205.  The first argument bounds the number of iterations; `num - counter` shrinks with each of them. -/
def forLoop (env : Env) : Nat → St → St × Bool
  | 0, s => (s, false)
  | k + 1, s =>
    if s.counter < s.num then
      match body env s with
      | (s, true) => (s, true)
      | (s, false) => forLoop env k s
    else (s, false)

/-- Keeps the first event of each notifier. -/
def dedup : List Nat → List (Nat × Ev) → List (Nat × Ev)
  | _, [] => []
  | seen, (n, e) :: r => if n ∈ seen then dedup seen r else (n, e) :: dedup (n :: seen) r

/-- `epoll_wait`, epoll.c 180-181.  The operating system is unknown: any list of events may be proposed, of which those are reported
that respect its contract: notifiers in the interest list, each at most once, at most CONFIG_MAX_EPOLL_EVENTS (100). -/
def kernelWait (s : St) (proposal : List (Nat × Ev)) : List (Nat × Ev) :=
  (dedup [] (proposal.filter fun x => (s.heap x.1).inKernel)).take 100

/-- How a run of the loop ends. -/
inductive Res where
  | ok | error | running
  deriving DecidableEq, Repr

/-- What `epoll_wait` does: it reports events, is interrupted (EINTR), or fails. -/
inductive Wait where
  | events (proposal : List (Nat × Ev))
  | interrupted
  | failed

/-- One `epoll_wait` that reported `b` and the dispatch of its events, epoll.c 188-205. -/
def dispatch (env : Env) (s : St) (b : List (Nat × Ev)) : St × Bool :=
  let s := { s with log := s.log ++ [.wait b], events := fun j => b.getD j (0, ⟨false, false, false⟩), num := b.length, counter := 0 }
  forLoop env s.num s

/-- `cio_eventloop_run`, epoll.c 175-211, for the answers `epoll_wait` gives one after the other (`running`: the loop is waiting for
the next answer). -/
def run (env : Env) : St → List Wait → St × Res
  | s, [] => (s, .running)
  | s, .interrupted :: ws => run env s ws
  | s, .failed :: _ => (s, .error)
  | s, .events p :: ws =>
    match dispatch env s (kernelWait s p) with
    | (s, true) => (s, .ok)
    | (s, false) => run env s ws

/-- `cio_eventloop_init`, epoll.c 67-105, when everything succeeds: the stop notifier is added. -/
def initial : St :=
  { heap := fun n => if n = 0 then ⟨true, true, true, false⟩ else ⟨false, false, false, false⟩,
    events := fun _ => (0, ⟨false, false, false⟩), num := 0, counter := 0, current := none, log := [], ub := false }

/-- What a program does with a loop: calls from outside of callbacks, and runs of the loop. -/
inductive Act where
  | call (o : Op)
  | run (ws : List Wait)

/-- A program; a run that is still waiting is never left. -/
def exec (env : Env) : St → List Act → St
  | s, [] => s
  | s, .call o :: as => exec env (doOp s o) as
  | s, .run ws :: as =>
    match run env s ws with
    | (s, .running) => s
    | (s, _) => exec env s as

end Cio.Epoll
