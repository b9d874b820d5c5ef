import Verif.Common
/-
Model of the event loop of the Windows port, /repo/lib/src/platform/windows/iocp.c.

A completion port is a queue of packets, each of which leads to a notifier (`OVERLAPPED` is its first part), or to none for the packet
posted by `cio_eventloop_cancel`.  Notifiers are numbers.  Packets are queued by the kernel when an overlapped operation ends (with
success or not) and by the threads of the timer pool; `cio_eventloop_run` takes them out in the order in which they were queued.
-/
namespace Cio.Windows.Loop

/-- A packet of the completion port: for a notifier (`ok`: what `GetQueuedCompletionStatus` returns for it), or with the key
`STOP_COMPLETION_KEY`, iocp.c 43. -/
inductive Msg where
  | ev (n : Nat) (ok : Bool)
  | stop
  deriving DecidableEq, Repr

/-- What can be observed from outside. -/
inductive Obs where
  | posted (n : Nat)       -- a packet for `n` was queued
  | cancel (own : Bool)    -- `cio_eventloop_cancel` is called; `own`: by the thread of the loop
  | start                  -- `cio_eventloop_run` is called
  | call (n : Nat)         -- the callback of `n` is called
  | done (e : Err)         -- `cio_eventloop_run` returned `e`
  deriving DecidableEq, Repr

/-- Where the thread of the loop is: outside of `cio_eventloop_run` (user code), in `GetQueuedCompletionStatus`, or in a callback. -/
inductive Thread where
  | outside
  | waiting
  | inside
  deriving DecidableEq, Repr

/-- `struct cio_eventloop`. -/
structure St where
  goAhead : Bool
  queue : List Msg
  thread : Thread
  log : List Obs
  deriving DecidableEq, Repr

/-- Moves. -/
inductive Move where
  | post (n : Nat) (ok : Bool)   -- the kernel or a thread of the timer pool queues a packet
  | cancel                       -- user code in the thread of the loop cancels the loop
  | cancelOther                  -- another thread cancels the loop
  | start                        -- user code calls `cio_eventloop_run`
  | get                          -- `GetQueuedCompletionStatus` returns with the first packet
  | portError                    -- `GetQueuedCompletionStatus` returns with an error and without a packet
  | leave                        -- the callback returns
  deriving DecidableEq, Repr

/-- The head of the loop of `cio_eventloop_run`, iocp.c 87, and its end, iocp.c 112. -/
def loopHead (s : St) : St :=
  if s.goAhead then { s with thread := .waiting }
  else { s with thread := .outside, log := s.log ++ [.done SUCCESS] }

/-- `cio_eventloop_run`, iocp.c 93-110, when `GetQueuedCompletionStatus` has returned with the packet `m`: the failed packets (94-102)
and the others (104-110). -/
def dispatch (s : St) (m : Msg) : St :=
  match m with
  | .ev n false => { s with thread := .inside, log := s.log ++ [.call n] }
  | .stop => { s with thread := .outside, log := s.log ++ [.done SUCCESS] }
  | .ev n true => { s with thread := .inside, log := s.log ++ [.call n] }

/-- `cio_eventloop_cancel`, iocp.c 115-119. -/
def cancel (s : St) (own : Bool) : St := { s with goAhead := false, queue := s.queue ++ [.stop], log := s.log ++ [.cancel own] }

/-- One step; `none` if the move is not possible. -/
def step (s : St) (m : Move) : Option St :=
  match m with
  | .post n ok => some { s with queue := s.queue ++ [.ev n ok], log := s.log ++ [.posted n] }
  | .cancel => if s.thread = .waiting then none else some (cancel s true)
  | .cancelOther => some (cancel s false)
  | .start => if s.thread = .outside then some (loopHead { s with log := s.log ++ [.start] }) else none
  | .get =>
    match s.thread, s.queue with
    | .waiting, m :: q => some (dispatch { s with queue := q } m)
    | _, _ => none
  | .portError => if s.thread = .waiting then some (loopHead s) else none
  | .leave => if s.thread = .inside then some (loopHead s) else none

/-- `cio_eventloop_init`, iocp.c 45-68, when it succeeds. -/
def initial : St := { goAhead := true, queue := [], thread := .outside, log := [] }

/-- A sequence of moves. -/
def run : St → List Move → Option St
  | s, [] => some s
  | s, m :: ms => (step s m).bind fun s => run s ms

/-! ### Initialisation -/

/-- What `cio_eventloop_init` leaves behind. -/
structure Res where
  port : Bool      -- a completion port is open
  wsa : Bool       -- winsock is started
  deriving DecidableEq, Repr

/-- `cio_eventloop_init`, iocp.c 45-68: the returned code and the resources.  `port` is `none` if a completion port could be created,
else the error; `wsa` is the result of `WSAStartup` (positive numbers are errors), which is returned as it is (line 67). -/
def init (port : Option Err) (wsa : Int) : Err × Res :=
  match port with
  | some e => (-e, ⟨false, false⟩)
  | none => if wsa ≠ 0 then (wsa, ⟨false, false⟩) else (SUCCESS, ⟨true, true⟩)

end Cio.Windows.Loop
