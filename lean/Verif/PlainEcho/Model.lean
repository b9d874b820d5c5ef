import Verif.StreamSocket.StepInv
/-
The echo server of /repo/examples/socket_echo.c (45-148) on a Linux socket (model `Cio.Socket`).  It reads whatever arrives straight from the socket into a read buffer of its own
(`BUFFER_SIZE`, 128 bytes there, `size` here), writes it back with `cio_buffered_stream_write` (model `Cio.BufferedWrite`) from where it is in the read buffer, consumes it, and reads again.

Simplifications: `epoll_ctl` does not fail; `cio_buffered_stream_init` does not fail (it cannot with these arguments).
-/
namespace Cio.PlainEcho
open BufferedWrite (Elem Resp)
open StreamSocket (Write Os answer respOf)

/-- What the server does next. -/
inductive Phase where
  | start      -- the connection has been accepted
  | reading    -- `read_some` was called
  | toWrite    -- `handle_read` was told of success and is going to write
  | writing    -- `cio_buffered_stream_write` was called
  | toRead     -- `handle_write` was told of success and is going to read
  | toClose    -- `handle_read` was told that the peer has closed and is going to close
  | stopped    -- nothing
  deriving DecidableEq, Repr

/-- `struct echo_client`, socket_echo.c 52-60: the socket, the read buffer (`data`: the memory up to `add_ptr`, `fetch`: `fetch_ptr`, as offsets), `number_of_bytes_read`; and the write under
way (`asked`: its `write_some` waits for the socket to become writable) and the finished ones. -/
structure Sys where
  sock : Socket.St
  data : List UInt8
  fetch : Nat
  num : Nat
  cur : Option Write
  asked : Bool
  done : List Write
  phase : Phase

inductive Ev where
  | peerSends (d : List UInt8)
  | peerCloses
  | enter                                -- `handle_accept` is called
  | leave                                -- a callback returns
  | timeout                              -- the close timer of the socket expires
  | read                                 -- the server calls `read_some`
  | write                                -- the server calls `cio_buffered_stream_write`
  | close (os : Os)                      -- the server calls `close`
  | readable (r : Socket.ReadRes)        -- the event loop reports the socket as readable
  | send (r : Socket.SendRes)            -- `write_some` is called: sendmsg
  | writable (err : Option Err)          -- the event loop reports the socket as writable

/-- The address of the element `client->wb`. -/
def elem : Nat := 1

/-- `cio_read_buffer_space_available`, read_buffer.h 75-78. -/
def space (size : Nat) (s : Sys) : Nat := size - s.data.length

/-- `cio_read_buffer_get_read_ptr` with `cio_read_buffer_unread_bytes` bytes, read_buffer.h 65-68 and 107-110. -/
def unread (s : Sys) : List UInt8 := s.data.drop s.fetch

/-- `handle_read`, socket_echo.c 103-123, up to the call of `close` or of `cio_buffered_stream_write`; `read_callback` (socket.c 85) has put `d` into the read buffer before. -/
def handleRead (s : Sys) (e : Err) (d : List UInt8) : Sys :=
  let s := { s with data := s.data ++ d }
  if e = EOF then { s with phase := .toClose }
  else if e ≠ SUCCESS then { s with phase := .stopped }
  else { s with phase := .toWrite }

/-- `handle_write`, socket_echo.c 88-101, up to the call of `read_some`. -/
def handleWrite (s : Sys) (e : Err) : Sys :=
  if e ≠ SUCCESS then { s with phase := .stopped }
  else { s with fetch := s.fetch + s.num, phase := .toRead }

/-- A write is over: the handler is called, or `cio_buffered_stream_write` returns an error, which `handle_read` ignores (socket_echo.c 122). -/
def written (s : Sys) (x : Write) : Sys :=
  let s := { s with cur := none, asked := false, done := s.done ++ [x] }
  match x.world.calls.getLast? with
  | some (e, _) => handleWrite s e
  | none => { s with phase := .stopped }

/-- `write_some` has been answered: `handle_first_write` or `handle_write` of the buffered stream runs (buffered_stream.c 177-265). -/
def settle (s : Sys) (x : Write) (r : Resp) : Option Sys :=
  (BufferedWrite.respond x.world r).map fun w =>
    let x : Write := { x with answers := x.answers ++ [r], world := w }
    if w.phase = .idle then written s x else { s with cur := some x, asked := false }

/-- One step; `none` if the event is not possible.  A function that has something left to do does not return. -/
def step (size : Nat) (s : Sys) : Ev → Option Sys
  | .peerSends d => (Socket.step s.sock (.peerSends d)).map fun k => { s with sock := k }
  | .peerCloses => (Socket.step s.sock .peerCloses).map fun k => { s with sock := k }
  | .enter => if s.phase = .start then (Socket.step s.sock .enter).map fun k => { s with sock := k } else none
  | .leave =>
    if s.phase = .reading ∨ s.phase = .stopped ∨ (s.phase = .writing ∧ s.asked = true) then (Socket.step s.sock .leave).map fun k => { s with sock := k } else none
  | .timeout => (Socket.step s.sock .timeout).map fun k => { s with sock := k }
  | .read =>  -- socket_echo.c 100 and 147
    if s.phase = .start ∨ s.phase = .toRead then (Socket.step s.sock (.read (space size s) true)).map fun k => { s with sock := k, phase := .reading } else none
  | .write => -- socket_echo.c 117-122
    if s.phase = .toWrite then
      let chain : List Elem := [⟨elem, unread s⟩]
      some { s with num := (unread s).length, cur := some { chain := chain, answers := [], world := BufferedWrite.write chain }, asked := false, phase := .writing }
    else none
  | .close os => -- socket_echo.c 108
    if s.phase = .toClose then (Socket.step s.sock (.close os.shutOk os.armOk os.soon os.regOk)).map fun k => { s with sock := k, phase := .stopped } else none
  | .readable r =>
    (Socket.step s.sock (.readable true r)).bind fun k =>
      match answer s.sock k with
      | some (.readDone _ e d) => some (handleRead { s with sock := k } e d)
      | _ => some { s with sock := k }
  | .send r =>
    match s.cur with
    | none => none
    | some x =>
      if s.asked then none
      else
        (Socket.step s.sock (.write x.data r true)).bind fun k =>
          match answer s.sock k with
          | some (.writeDone _ e n) => settle { s with sock := k } x (respOf e n)
          | some (.writeStarted _ _) => some { s with sock := k, asked := true }
          | some (.writeRefused _ e) => settle { s with sock := k } x (.sync e)
          | _ => none
  | .writable err =>
    (Socket.step s.sock (.writable err)).bind fun k =>
      match s.cur, answer s.sock k with
      | some x, some (.writeDone _ e n) => settle { s with sock := k } x (respOf e n)
      | _, _ => none

/-- `alloc_echo_client`, socket_echo.c 62-72, with a new socket. -/
def initial (closeTimeout : Bool) : Sys :=
  { sock := Socket.initial closeTimeout, data := [], fetch := 0, num := 0, cur := none, asked := false, done := [], phase := .start }

/-- What is assumed of the operating system: errors are `-errno`, the close timer does not expire at the moment it is armed, and a socket is reported as readable only if something has arrived
or the peer has closed, and then there is something to read. -/
def Allowed (s : Sys) : Ev → Prop
  | .close os => os.soon = false
  | .readable r => (s.sock.incoming ≠ [] ∨ s.sock.incomingEnd = true) ∧ r ≠ .again ∧ ∀ e, r = .error e → e < 0
  | .send r => ∀ e, r = .error e → e < 0
  | _ => True

/-- The executions of the server on a connection. -/
inductive Reach (size : Nat) (closeTimeout : Bool) : Sys → Prop
  | init : Reach size closeTimeout (initial closeTimeout)
  | step {s s' : Sys} {e : Ev} (h : Reach size closeTimeout s) (ha : Allowed s e) (hs : step size s e = some s') : Reach size closeTimeout s'

/-- What may come after a state. -/
inductive Later (size : Nat) (s : Sys) : Sys → Prop
  | refl : Later size s s
  | step {t t' : Sys} {e : Ev} (h : Later size s t) (ha : Allowed t e) (hs : PlainEcho.step size t e = some t') : Later size s t'

end Cio.PlainEcho
