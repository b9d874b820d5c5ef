import Verif.Common
/-
Model of the sockets of the Linux port, /repo/lib/src/platform/linux/socket.c, for one socket.

Like the timer model this is a small-step machine with an explicit stack: user code (handlers, the close hook) on top of the stack may
call the functions of the socket.  The operating system is a parameter: each move carries the results of the system calls it makes.
The close timer is represented by whether it is armed (see Verif/Timer for the timers themselves), the event loop by the registrations
of the socket's notifier (see Verif/Epoll).

`socket->impl.ev.context`, which reading and writing set to the stream and connecting and closing to the socket, is left out: the stream is the first member of `struct cio_socket`
(socket.h 79), so that both are the same address, whichever callback is called.
-/
namespace Cio.Socket

/-- `socket->impl.ev.read_callback`. -/
inductive ReadCb where
  | none | read | drain
  deriving DecidableEq, Repr

/-- `socket->impl.ev.write_callback`. -/
inductive WriteCb where
  | none | write | connect
  deriving DecidableEq, Repr

inductive Item where
  | user               -- user code
  | afterArm           -- shutdown_socket behind the arming of the timer, socket.c 325-328
  deriving DecidableEq, Repr

inductive Obs where
  | readStarted (t : Nat)
  | readRefused (err : Err)                             -- `read_some` returned an error
  | readDone (t : Nat) (err : Err) (data : List UInt8)   -- the read handler is called, `data` was appended to the read buffer
  | writeStarted (t : Nat) (data : List UInt8)
  | writeDone (t : Nat) (err : Err) (count : Nat)        -- the write handler is called
  | writeRefused (t : Nat) (err : Err)                  -- `write_some` returned an error
  | connectStarted
  | connectDone (err : Err)                             -- the connect handler is called
  | connectRefused (err : Err)
  | closeCalled                                         -- the user called `cio_socket_close`
  | fdClosed                                            -- close(2)
  | hook                                                -- the close hook is called
  | peerSent (data : List UInt8)                        -- bytes arrived from the peer
  | peerClosed                                          -- the peer closed its side
  deriving DecidableEq, Repr

/-- `struct cio_socket` and its surroundings. -/
structure St where
  regIn : Bool                       -- registered for read events
  regOut : Bool                      -- registered for write events
  readCb : ReadCb
  writeCb : WriteCb
  pendRead : Option (Nat × Nat)      -- `stream.read_handler`/`read_buffer`: number of the read, space left in the buffer
  pendWrite : Nat                    -- `stream.write_handler`: number of the write
  peerClosed : Bool
  closeTimeout : Bool                -- `close_timeout_ns > 0`
  timerArmed : Bool
  inLoop : Bool
  alive : Bool                       -- the close hook may free the object
  nextRead : Nat
  nextWrite : Nat
  incoming : List UInt8              -- bytes in the receive queue of the kernel
  incomingEnd : Bool                 -- the peer has closed its side behind them
  outgoing : List UInt8              -- bytes accepted by the kernel for sending
  stack : List Item
  ub : Bool
  log : List Obs
  deriving DecidableEq, Repr

/-- What read(2) does. -/
inductive ReadRes where
  | bytes (n : Nat)    -- up to `n` bytes are available (at least one is delivered if possible), the end of the stream otherwise
  | again              -- EAGAIN
  | error (e : Err)    -- `-errno`
  deriving DecidableEq, Repr

/-- What sendmsg(2) does. -/
inductive SendRes where
  | sent (n : Nat)
  | again
  | error (e : Err)
  deriving DecidableEq, Repr

/-- What connect(2) does. -/
inductive ConnRes where
  | done
  | inProgress
  | error (e : Err)
  deriving DecidableEq, Repr

inductive Move where
  | enter
  | leave
  | peerSends (data : List UInt8)
  | peerCloses
  | read (space : Nat) (ok : Bool)                            -- read_some; `ok`: epoll_ctl succeeds
  | write (data : List UInt8) (r : SendRes) (ok : Bool)       -- write_some
  | connect (r : ConnRes) (ok : Bool)                         -- cio_socket_connect
  | close (shutOk armOk soon regOk : Bool)                    -- cio_socket_close; `soon`: the timer expires before it is read
  | readable (unregOk : Bool) (r : ReadRes)                   -- the event loop reports the socket as readable
  | writable (err : Option Err)                               -- the event loop reports the socket as writable (`some e`: with EPOLLERR, SO_ERROR is e)
  | timeout                                                   -- the close timer expires
  | continue (regOk : Bool)                                   -- the library code on top of the stack goes on
  deriving DecidableEq, Repr

/-- epoll_ctl errors (EBADF and the like); the value does not matter. -/
def EPOLL_FAILED : Err := -9

/-- Accesses to the socket's memory. -/
def guarded (s : St) (f : St → St) : St := if s.alive then f s else { s with ub := true }

/-- `close_socket` and `close_and_call_hook`, socket.c 93-108.  The close timer's handler does nothing when it is told of an abort
(socket.c 305). -/
def closeSocket (s : St) : St := guarded s fun s =>
  { s with regIn := false, inLoop := false, timerArmed := false, alive := false, log := s.log ++ [.fdClosed, .hook], stack := .user :: s.stack }

/-- `reset_connection`, socket.c 110-119: SO_LINGER makes no difference here. -/
def resetConnection (s : St) : St := closeSocket s

/-- `cancel_timer_and_reset_connection`, socket.c 121-125. -/
def cancelAndReset (s : St) : St := resetConnection { s with timerArmed := false }

/-- A handler call. -/
def call (s : St) (o : Obs) : St := { s with log := s.log ++ [o], stack := .user :: s.stack }

/-- The bytes read(2) delivers: at most `space`, at most `n`, at least one if possible. -/
def taken (s : St) (space n : Nat) : List UInt8 := s.incoming.take (min space (max n 1))

/-- A non-blocking read(2) into a buffer that is not empty reports EAGAIN if nothing has arrived and the peer has not closed. -/
def osRead (s : St) (space : Nat) (r : ReadRes) : ReadRes :=
  match r with
  | .bytes n => if space ≠ 0 ∧ s.incoming = [] ∧ s.incomingEnd = false then .again else .bytes n
  | r => r

/-- `read_callback`, socket.c 58-91 (the event loop passes no errors to read callbacks). -/
def readCallback (s : St) (t space : Nat) (unregOk : Bool) (r : ReadRes) : St :=
  let s := { s with regIn := false }
  if !unregOk then call { s with pendRead := none } (.readDone t EPOLL_FAILED [])
  else
    match osRead s space r with
    | .again => s
    | .error e => call { s with pendRead := none } (.readDone t e [])
    | .bytes n =>
      let d := taken s space n
      if d.length = 0 then call { s with pendRead := none, peerClosed := true } (.readDone t EOF [])
      else call { s with pendRead := none, incoming := s.incoming.drop d.length } (.readDone t SUCCESS d)

/-- `READ_CLOSE_BUFFER_SIZE`, socket.c 127. -/
def readCloseBufferSize : Nat := 20

/-- `read_until_close_callback`, socket.c 129-159. -/
def drainCallback (s : St) (unregOk : Bool) (r : ReadRes) : St :=
  let s := { s with regIn := false }
  if !unregOk then cancelAndReset s
  else
    match osRead s readCloseBufferSize r with
    | .again => s
    | .error _ => cancelAndReset s
    | .bytes n =>
      let d := taken s readCloseBufferSize n
      if d.length = 0 then closeSocket { s with timerArmed := false }
      else { s with incoming := s.incoming.drop d.length }

/-- `stream_read`, socket.c 161-175. -/
def streamRead (s : St) (space : Nat) (ok : Bool) : St :=
  let t := s.nextRead
  let s := { s with readCb := .read, pendRead := some (t, space), nextRead := t + 1, regIn := true }
  if ok then { s with log := s.log ++ [.readStarted t] } else { s with log := s.log ++ [.readRefused EPOLL_FAILED] }

/-- `stream_write`, socket.c 191-232; `data` is what the elements of the chain contain, one after the other (the `iovec`s). -/
def streamWrite (s : St) (data : List UInt8) (r : SendRes) (ok : Bool) : St :=
  let t := s.nextWrite
  let s := { s with nextWrite := t + 1 }
  match r with
  | .sent n =>
    let n := min n data.length
    call { s with outgoing := s.outgoing ++ data.take n, log := s.log ++ [.writeStarted t data] } (.writeDone t SUCCESS n)
  | .again =>
    let s := { s with writeCb := .write, pendWrite := t, regOut := true }
    if ok then { s with log := s.log ++ [.writeStarted t data] } else { s with log := s.log ++ [.writeRefused t EPOLL_FAILED] }
  | .error e => { s with log := s.log ++ [.writeRefused t e] }

/-- `cio_socket_connect`, socket.c 368-394. -/
def connect (s : St) (r : ConnRes) (ok : Bool) : St :=
  match r with
  | .done => call { s with log := s.log ++ [.connectStarted] } (.connectDone SUCCESS)
  | .inProgress =>
    let s := { s with writeCb := .connect, regOut := true }
    if ok then { s with log := s.log ++ [.connectStarted] } else { s with log := s.log ++ [.connectRefused EPOLL_FAILED] }
  | .error e => { s with log := s.log ++ [.connectRefused e] }

/-- `write_callback`, socket.c 177-189, and `connect_callback`, socket.c 357-366. -/
def writeCallback (s : St) (err : Option Err) : St :=
  let e := err.getD SUCCESS
  match s.writeCb with
  | .write => call s (.writeDone s.pendWrite e 0)
  | .connect => call s (.connectDone e)
  | .none => { s with ub := true }

/-- The end of `shutdown_socket`, socket.c 325-335. -/
def shutdownTail (s : St) (regOk : Bool) : St := guarded s fun s =>
  let s := { s with regIn := true }
  if regOk then s else resetConnection s

/-- `shutdown_socket`, socket.c 311-335.  Arming the timer reads it at once (timer.c 129), so that the timeout handler may be called
from within. -/
def shutdownSocket (s : St) (shutOk armOk soon regOk : Bool) : St :=
  if !shutOk then resetConnection s
  else
    let s := { s with readCb := .drain }
    if !armOk then resetConnection s
    else if soon then
      -- close_timeout_handler, socket.c 301-309
      resetConnection { s with stack := .afterArm :: s.stack }
    else shutdownTail { s with timerArmed := true } regOk

/-- `cio_socket_close`, socket.c 337-355. -/
def close (s : St) (shutOk armOk soon regOk : Bool) : St :=
  let s := { s with log := s.log ++ [.closeCalled] }
  if s.peerClosed then closeSocket s
  else if s.closeTimeout then shutdownSocket s shutOk armOk soon regOk
  else closeSocket s

/-- One step; `none` if the move is not possible.  User code only uses the socket while it exists. -/
def step (s : St) (m : Move) : Option St :=
  if s.ub then none
  else
    match m, s.stack with
    | .peerSends d, _ => if s.incomingEnd then none else some { s with incoming := s.incoming ++ d, log := s.log ++ [.peerSent d] }
    | .peerCloses, _ => some { s with incomingEnd := true, log := s.log ++ [.peerClosed] }
    | .enter, [] => some { s with stack := [.user] }
    | .leave, .user :: k => some { s with stack := k }
    | .read space ok, .user :: _ => if s.alive then some (streamRead s space ok) else none
    | .write d r ok, .user :: _ => if s.alive then some (streamWrite s d r ok) else none
    | .connect r ok, .user :: _ => if s.alive then some (connect s r ok) else none
    | .close a b c d, .user :: _ => if s.alive then some (close s a b c d) else none
    | .readable unregOk r, [] =>
      if s.inLoop && s.regIn then
        match s.readCb, s.pendRead with
        | .read, some (t, space) => some (readCallback s t space unregOk r)
        | .drain, _ => some (drainCallback s unregOk r)
        | _, _ => some { s with ub := true }
      else none
    | .writable err, [] => if s.inLoop && s.regOut then some (writeCallback { s with regOut := false } err) else none
    | .timeout, [] => if s.timerArmed then some (resetConnection { s with timerArmed := false }) else none
    | .continue regOk, .afterArm :: k => some (shutdownTail { s with stack := k } regOk)
    | _, _ => none

/-- A socket that was initialised successfully (`cio_linux_socket_init`, socket.c 241-275). -/
def initial (closeTimeout : Bool) : St :=
  { regIn := false, regOut := false, readCb := .none, writeCb := .none, pendRead := none, pendWrite := 0, peerClosed := false,
    closeTimeout := closeTimeout, timerArmed := false, inLoop := true, alive := true, nextRead := 0, nextWrite := 0, incoming := [],
    incomingEnd := false, outgoing := [], stack := [], ub := false, log := [] }

def run : St → List Move → Option St
  | s, [] => some s
  | s, m :: ms => (step s m).bind fun s => run s ms

end Cio.Socket
