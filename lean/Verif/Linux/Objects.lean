import Verif.Linux.Loop
import Verif.Socket.Model
import Verif.Timer.Model
/-
Sockets and timers of the Linux port (models `Cio.Socket` and `Cio.Timer`) on the event loop (model `Cio.Epoll`).  The models of the objects suppose that the loop calls them
only while they are registered, and the model of the loop supposes that its functions are called only for notifiers that are in the loop.  Here both suppositions are
discharged: `calls` are the calls that socket.c and timer.c make to the loop, `SocketAt` says that the calls recorded for a notifier are those of a socket.
-/
namespace Cio.Linux
open Epoll (Op Obs Log)

/-- The notifier a recorded action is about. -/
def about : Obs → Option Nat
  | .read n | .write n _ => some n
  | .op (.add n _) | .op (.registerRead n _) | .op (.unregisterRead n _) | .op (.registerWrite n _) | .op (.unregisterWrite n _) | .op (.remove n) => some n
  | _ => none

/-- `close_socket`, socket.c 103-104; `u`: whether `epoll_ctl` succeeded (nobody asks). -/
def closing (n : Nat) (u : Bool) : List Op := [.unregisterRead n u, .remove n]

/-- Whether `read_until_close_callback` closes the socket behind its `read`, socket.c 145-158. -/
def drained (s : Socket.St) (r : Socket.ReadRes) : Bool :=
  match Socket.osRead { s with regIn := false } Socket.readCloseBufferSize r with
  | .again => false
  | .error _ => true
  | .bytes k => decide ((Socket.taken { s with regIn := false } Socket.readCloseBufferSize k).length = 0)

/-- The calls the functions of socket.c make to the event loop, for the notifier `n` of the socket: `stream_read` (174), `stream_write` (225), `cio_socket_connect` (389),
`cio_socket_close` (337-355, 325), `read_callback` (64), `read_until_close_callback` (135-158), `close_timeout_handler` (301-309), the end of `shutdown_socket` (325-335). -/
def socketCalls (n : Nat) (u : Bool) (s : Socket.St) : Socket.Move → List Op
  | .read _ ok => [.registerRead n ok]
  | .write _ r ok => match r with | .again => [.registerWrite n ok] | _ => []
  | .connect r ok => match r with | .inProgress => [.registerWrite n ok] | _ => []
  | .close shutOk armOk soon regOk =>
    if s.peerClosed || !s.closeTimeout || !shutOk || !armOk || soon then closing n u
    else .registerRead n regOk :: if regOk then [] else closing n u
  | .readable unregOk r => .unregisterRead n unregOk :: if s.readCb = .drain && (!unregOk || drained s r) then closing n u else []
  | .timeout => closing n u
  | .continue regOk => .registerRead n regOk :: if regOk then [] else closing n u
  | _ => []

/-- The log of the loop is `l`, and what it records for notifier `n` since it was added is what a socket did that is now in state `s`. -/
inductive SocketAt (n : Nat) : Socket.St → Log → Prop where
  /-- `cio_linux_socket_init`, socket.c 265. -/
  | created (closeTimeout : Bool) (l : Log) : SocketAt n (Socket.initial closeTimeout) (l ++ [.op (.add n true)])
  /-- Something else happens. -/
  | elsewhere {s l} (o : Obs) : SocketAt n s l → about o ≠ some n → SocketAt n s (l ++ [o])
  /-- Everything that is not a callback from the loop. -/
  | move {s s' l} (m : Socket.Move) (u : Bool) : SocketAt n s l → (∀ a r, m ≠ .readable a r) → (∀ e, m ≠ .writable e) → Socket.step s m = some s' → s'.ub = false →
      SocketAt n s' (l ++ (socketCalls n u s m).map .op)
  | readable {s s' l} (unregOk : Bool) (r : Socket.ReadRes) (u : Bool) : SocketAt n s l → Socket.step s (.readable unregOk r) = some s' → s'.ub = false →
      SocketAt n s' (l ++ .read n :: (socketCalls n u s (.readable unregOk r)).map .op)
  | writable {s s' l} (e : Option Err) : SocketAt n s l → Socket.step s (.writable e) = some s' → s'.ub = false → SocketAt n s' (l ++ [.write n e.isSome])

/-- The calls of timer.c: `cio_timer_close` (154). -/
def timerCalls (n : Nat) : Timer.Move → List Op
  | .close _ => [.remove n]
  | _ => []

/-- The same for timers. -/
inductive TimerAt (n : Nat) : Timer.St → Log → Prop where
  /-- `cio_timer_init`, timer.c 97-102. -/
  | created (l : Log) : TimerAt n Timer.initial (l ++ [.op (.add n true), .op (.registerRead n true)])
  | elsewhere {s l} (o : Obs) : TimerAt n s l → about o ≠ some n → TimerAt n s (l ++ [o])
  | move {s s' l} (m : Timer.Move) : TimerAt n s l → (∀ f, m ≠ .event f) → Timer.step s m = some s' → TimerAt n s' (l ++ (timerCalls n m).map .op)
  | event {s s' l} (f : Option Err) : TimerAt n s l → Timer.step s (.event f) = some s' → TimerAt n s' (l ++ [.read n])

end Cio.Linux
