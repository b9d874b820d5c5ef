import Verif.Socket.Props
import Verif.BufferedRead.Props
import Verif.BufferedWrite.Props
/-
A buffered stream (/repo/lib/src/buffered_stream.c, models `Cio.BufferedRead` and `Cio.BufferedWrite`) on top of a socket of the Linux port
(/repo/lib/src/platform/linux/socket.c, model `Cio.Socket`).  The transport of the buffered stream, which its own models leave open, is here the
modelled socket: `stream->read_some` is `stream_read`, `stream->write_some` is `stream_write`, `stream->close` is `stream_close`, and the
handlers the socket calls are those of the buffered stream.  What remains open is the operating system (results of system calls, when the
socket is readable or writable), the peer and the application.

Simplifications: `epoll_ctl` does not fail; what an application writes from within a read handler is written when that handler has returned
(reading and writing do not share state); the socket is connected already.
-/
namespace Cio.StreamSocket
open BufferedRead (UAct)
open BufferedWrite (Elem Resp flat)

/-- One `cio_buffered_stream_write`: the caller's chain, what `write_some` answered so far, and the state of the stream's write half. -/
structure Write where
  chain : List Elem
  answers : List Resp
  world : BufferedWrite.World

/-- The socket, the read half of the stream, the write under way and the finished ones; `asked`: the current `write_some` waits for the socket to
become writable. -/
structure Sys where
  sock : Socket.St
  br : BufferedRead.World
  cur : Option Write
  asked : Bool
  done : List Write

/-- The results of the system calls made by `cio_socket_close`. -/
structure Os where
  shutOk : Bool
  armOk : Bool
  soon : Bool
  regOk : Bool

inductive Ev where
  | peerSends (d : List UInt8)
  | peerCloses
  | enter                                -- the application runs (outside of handlers)
  | leave                                -- the application or a callback returns
  | timeout                              -- the close timer of the socket expires
  | user (a : UAct) (os : Os)            -- the application reads, consumes or closes
  | loop (os : Os)                       -- `run_read` goes on
  | readable (r : Socket.ReadRes)        -- the event loop reports the socket as readable
  | write (chain : List Elem)            -- the application calls `cio_buffered_stream_write`
  | send (r : Socket.SendRes)            -- `write_some` is called: sendmsg
  | writable (err : Option Err)          -- the event loop reports the socket as writable

/-- A `write_some` is about to be called; nothing else happens before. -/
def Sys.busy (s : Sys) : Bool := s.cur.isSome && !s.asked

/-- User code is running. -/
def Sys.inUser (s : Sys) : Bool := match s.sock.stack with | .user :: _ => true | _ => false

/-- What the socket did last: the observations it added are the call of a handler or the value returned. -/
def answer (before after : Socket.St) : Option Socket.Obs := (after.log.drop before.log.length).getLast?

/-- `read_some` at the end of `fill_buffer` (buffered_stream.c 86) with the space of the read buffer. -/
def asks (s : Sys) (br : BufferedRead.World) : Option Socket.St :=
  if br.waiting = true ∧ s.br.waiting = false then Socket.step s.sock (.read br.rb.spaceAvailable true) else some s.sock

/-- `stream->close` in `cio_buffered_stream_close` (buffered_stream.c 344) and `call_handler` (63). -/
def closes (s : Sys) (br : BufferedRead.World) (os : Os) (k : Socket.St) : Option Socket.St :=
  if br.closed = true ∧ s.br.closed = false then Socket.step k (.close os.shutOk os.armOk os.soon os.regOk) else some k

/-- The read half of the stream has become `br`; what it does to the socket on its way. -/
def follow (s : Sys) (br : BufferedRead.World) (os : Os) : Option Sys :=
  (asks s br).bind fun k => (closes s br os k).map fun k => { s with sock := k, br := br }

/-- `write_some` has been answered: `handle_first_write` or `handle_write` runs (buffered_stream.c 177-265). -/
def settle (s : Sys) (x : Write) (r : Resp) : Option Sys :=
  (BufferedWrite.respond x.world r).map fun w =>
    let x : Write := { x with answers := x.answers ++ [r], world := w }
    if w.phase = .idle then { s with cur := none, asked := false, done := s.done ++ [x] } else { s with cur := some x, asked := false }

/-- What `write_some` is given: buffered_stream.c 217 and 246 (the rest), 361 (the caller's chain). -/
def Write.data (x : Write) : List UInt8 := flat (if x.world.phase = .first then x.world.chain else x.world.wbh)

/-- The answer to `write_some` as the stream's handler gets it. -/
def respOf (e : Err) (n : Nat) : Resp := if e = SUCCESS then .ok n else .err e

/-- One step; `none` if the event is not possible. -/
def step (H : BufferedRead.Handler) (s : Sys) : Ev → Option Sys
  | .peerSends d => (Socket.step s.sock (.peerSends d)).map fun k => { s with sock := k }
  | .peerCloses => (Socket.step s.sock .peerCloses).map fun k => { s with sock := k }
  | .enter => (Socket.step s.sock .enter).map fun k => { s with sock := k }
  | .leave => if s.busy || s.br.looping then none else (Socket.step s.sock .leave).map fun k => { s with sock := k }
  | .timeout => (Socket.step s.sock .timeout).map fun k => { s with sock := k }
  | .user a os => if s.busy || !s.inUser then none else (BufferedRead.step H s.br (.user a)).bind fun br => follow s br os
  | .loop os => if s.busy || !s.inUser then none else (BufferedRead.step H s.br (.loop SUCCESS)).bind fun br => follow s br os
  | .readable r =>
    (Socket.step s.sock (.readable true r)).bind fun k =>
      match answer s.sock k with
      | some (.readDone _ e d) =>
        (BufferedRead.step H s.br (if e = SUCCESS then .deliver d else .fail e)).map fun br => { s with sock := k, br := br }
      | _ => some { s with sock := k }
  | .write chain =>
    if s.cur.isSome || !s.inUser || s.br.closed then none
    else some { s with cur := some { chain := chain, answers := [], world := BufferedWrite.write chain }, asked := false }
  | .send r =>
    match s.cur with
    | none => none
    | some x =>
      if s.asked then none
      else
        (Socket.step s.sock (.write x.data r true)).bind fun k =>
          match answer s.sock k with
          | some (.writeDone _ e n) => settle { s with sock := k } x (respOf e n)
          | some (.writeStarted _ _) => some { s with sock := k, asked := true }
          | some (.writeRefused _ e) => settle { s with sock := k } x (.sync e)
          | _ => none
  | .writable err =>
    (Socket.step s.sock (.writable err)).bind fun k =>
      match s.cur, answer s.sock k with
      | some x, some (.writeDone _ e n) => settle { s with sock := k } x (respOf e n)
      | _, _ => none

/-- A stream on a new socket; `mem` is the memory of the read buffer. -/
def initial (closeTimeout : Bool) (mem : List UInt8) : Sys :=
  { sock := Socket.initial closeTimeout, br := BufferedRead.init mem, cur := none, asked := false, done := [] }

def run (H : BufferedRead.Handler) : Sys → List Ev → Option Sys
  | s, [] => some s
  | s, e :: es => (step H s e).bind fun s => run H s es

end Cio.StreamSocket
