import Verif.Socket.Model
/-
The program /repo/examples/socket_connect.c on Linux: it connects one socket (model `Cio.Socket`), and ends when the connection attempt has been answered or a signal arrives.

The program is taken from where the socket has been initialised (socket_connect.c 125); before that nothing of it can be seen.  The socket is a local variable of `main` and has no close hook, so that
its memory outlives the descriptor: what `cio_socket_close` does on a socket that has been closed before is therefore modelled (`closeAgain`) and not an end of the model as in `Cio.Socket`.
-/
namespace Cio.ConnectExample
open Socket (St Move Obs ConnRes ReadRes)

/-- Where the program is. -/
inductive Phase where
  | start        -- before `cio_socket_connect`, socket_connect.c 131
  | handler      -- in `handle_connect`, socket_connect.c 48-58
  | running      -- in `cio_eventloop_run`, socket_connect.c 137
  | closing      -- at `close_socket`, socket_connect.c 143
  | ended        -- the loop has been destroyed, socket_connect.c 145
  deriving DecidableEq, Repr

structure Sys where
  phase : Phase
  sock : St
  cancels : Nat      -- calls of `cio_eventloop_cancel`
  signals : Nat
  failure : Bool     -- `ret` is EXIT_FAILURE

inductive Ev where
  | connect (r : ConnRes) (ok : Bool)
  | handle (shutOk armOk soon regOk : Bool)          -- `handle_connect` runs
  | signal
  | peerSends (d : List UInt8)
  | peerCloses
  | readable (unregOk : Bool) (r : ReadRes)
  | writable (err : Option Err)
  | timeout
  | stop (ok : Bool)                                 -- the loop reports the eventfd (`true`), or `epoll_wait` fails
  | close (shutOk armOk soon regOk : Bool)           -- socket_connect.c 143
  deriving Repr

/-- User code returns at once: there is no close hook, and `handle_connect` is a phase of its own. -/
def settled (s : St) : St := { s with stack := s.stack.filter (· ≠ .user) }

/-- `cio_socket_close` (socket.c 337-355) when the descriptor has been closed: the object is still there, `shutdown` fails with EBADF, so that `close_socket` runs (again) in all three cases; it closes
the descriptors of timer and socket once more. -/
def closeAgain (s : St) : St := { s with log := s.log ++ [.closeCalled, .fdClosed] }

/-- `cio_socket_close` as the program calls it.  If the close timer expires while it is armed, `shutdown_socket` (socket.c 326-335) goes on with the closed descriptor: to register it fails, and the
socket is closed once more. -/
def closeIt (s : St) (shutOk armOk soon regOk : Bool) : St :=
  if s.alive then
    let k := settled (Socket.close s shutOk armOk soon regOk)
    if k.stack = [] then k else { k with stack := [], log := k.log ++ [.fdClosed] }
  else closeAgain s

/-- One step. -/
def step (s : Sys) : Ev → Option Sys
  | .connect r ok =>
    if s.phase = .start then
      let k := settled (Socket.connect s.sock r ok)
      match r, ok with
      | .done, _ => some { s with phase := .handler, sock := k }
      | .inProgress, true => some { s with phase := .running, sock := k }
      | _, _ => some { s with phase := .closing, sock := k, failure := true }
    else none
  | .handle a b c d => if s.phase = .handler then some { s with phase := .running, sock := closeIt s.sock a b c d, cancels := s.cancels + 1 } else none
  | .signal => if s.phase = .ended then none else some { s with signals := s.signals + 1, cancels := s.cancels + 1 }
  | .peerSends d => (Socket.step s.sock (.peerSends d)).map fun k => { s with sock := k }
  | .peerCloses => (Socket.step s.sock .peerCloses).map fun k => { s with sock := k }
  | .readable u r => if s.phase = .running then (Socket.step s.sock (.readable u r)).map fun k => { s with sock := settled k } else none
  -- the only write callback is `connect_callback`, which calls `handle_connect`
  | .writable e => if s.phase = .running then (Socket.step s.sock (.writable e)).map fun k => { s with phase := .handler, sock := settled k } else none
  | .timeout => if s.phase = .running then (Socket.step s.sock .timeout).map fun k => { s with sock := settled k } else none
  | .stop ok => if s.phase = .running ∧ (ok = true → 0 < s.cancels) then some { s with phase := .closing, failure := s.failure || !ok } else none
  | .close a b c d => if s.phase = .closing then some { s with phase := .ended, sock := closeIt s.sock a b c d } else none

/-- `close_timeout_ns` is a second, socket_connect.c 43. -/
def initial : Sys := { phase := .start, sock := Socket.initial true, cancels := 0, signals := 0, failure := false }

def run : Sys → List Ev → Option Sys
  | s, [] => some s
  | s, e :: es => (step s e).bind fun s => run s es

/-- The executions of the program. -/
inductive Reach : Sys → Prop
  | init : Reach initial
  | step {s s' : Sys} {e : Ev} (h : Reach s) (hs : step s e = some s') : Reach s'

end Cio.ConnectExample
