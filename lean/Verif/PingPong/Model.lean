import Verif.Echo.Props
/-
The client of /repo/examples/socket_ping_pong.c (185-261; examples/linux/uds_socket_ping_pong.c has the same functions) as an application of a buffered stream on a Linux socket
(model `Cio.StreamSocket`): it writes `HELLO`, reads as many bytes, writes them back from where they are in the read buffer, consumes them and reads again, until it has read `max_pings`
times; then it closes.  `hello` is `HELLO` (6 bytes in the example), `max` is `max_pings`, and the read buffer has 128 bytes there.  At the end of the file client and server
(`Cio.Echo`) are put together over a network.

Simplifications: those of `Cio.StreamSocket` (the socket is connected already; what is written from within the read handler is written when that handler has returned); the close hook, which cancels
the event loop, is the one of the socket.
-/
namespace Cio.PingPong
open BufferedRead (UAct Handler Job World Call)
open StreamSocket (Sys Ev Write step Allowed)

/-- What the client does next. -/
inductive Phase where
  | start                          -- connected: `handle_connect` runs
  | writing
  | toConsume                      -- `client_handle_write` was told of success
  | toRead                         -- it has consumed
  | reading
  | toWrite (d : List UInt8)       -- `client_handle_read` was told of success and is going to write
  | toClose                        -- `client_handle_write` was told of an error, or the first write was refused
  | stopped                        -- the stream is closed, or a later write was refused
  deriving DecidableEq

/-- `client->number_of_pings`: how often `client_handle_read` was told of success, socket_ping_pong.c 201. -/
def pings (w : World) : Nat := w.calls.countP fun c => decide (c.err = SUCCESS)

/-- What `client_handle_read` does on the read side, socket_ping_pong.c 185-212: close on errors and after the last ping. -/
def readHandler (max : Nat) : Handler := fun w =>
  match w.calls.getLast? with
  | some c => if c.err = SUCCESS then if pings w < max then [] else [.close] else [.close]
  | none => []

/-- `client->bytes_read`: 0 at first (`main`, 394), then what `client_handle_read` was told of (203). -/
def bytesRead (w : World) : Nat := match w.calls.getLast? with | some c => c.num | none => 0

/-- How the client goes on when a write is over, socket_ping_pong.c 214-229: it closes if the handler is told of an error.  If `cio_buffered_stream_write` returns an error, the handler is not called:
`handle_connect` (256-260) closes then, `client_handle_read` (207) does not look at the result. -/
def afterWrite (first : Bool) (x : Write) : Phase :=
  match x.world.calls.getLast? with
  | some (e, _) => if e = SUCCESS then .toConsume else .toClose
  | none => if first then .toClose else .stopped

/-- The program: which event may come next, and how it goes on.  `handle_connect` (238-261) writes `HELLO`; `client_handle_write` (214-229) consumes what was read before and reads; `client_handle_read`
(185-212) writes what it was given, or closes; a function that has something left to do does not return. -/
def next (hello : List UInt8) (max : Nat) (p : Phase) (s s' : Sys) : Ev → Option Phase
  | .enter => if p = .start then some p else none
  | .leave => if p = .reading ∨ p = .writing ∨ p = .stopped then some p else none
  | .user a _ =>
    match p, a with
    | .toConsume, .consume n => if n = bytesRead s.br then some .toRead else none
    | .toRead, .read (.atLeast n) => if n = hello.length then some .reading else none
    | .toClose, .close => some .stopped
    | _, _ => none
  | .loop _ =>
    if s'.br.calls.length = s.br.calls.length then some p
    else
      match s'.br.calls.getLast? with
      | some c => if c.err = SUCCESS then if pings s'.br < max then some (.toWrite (c.view.take c.num)) else some .stopped else some .stopped
      | none => none
  | .write chain =>
    match p with
    | .start => if chain = [⟨Echo.elem, hello⟩] then some .writing else none
    | .toWrite d => if chain = [⟨Echo.elem, d⟩] then some .writing else none
    | _ => none
  | .send _ | .writable _ =>
    if s'.done.length = s.done.length then some p
    else
      match s'.done.getLast? with
      | some x => some (afterWrite (decide (s'.done.length = 1)) x)
      | none => none
  | _ => some p

/-- The executions of the client on a connection: the system can do the step, the operating system keeps to `Allowed`, and the program does this next. -/
inductive Reach (hello : List UInt8) (max : Nat) (quiet closeTimeout : Bool) (mem : List UInt8) : Phase → Sys → Prop
  | init : Reach hello max quiet closeTimeout mem .start (StreamSocket.initial closeTimeout mem)
  | step {p p' : Phase} {s s' : Sys} {e : Ev} (h : Reach hello max quiet closeTimeout mem p s) (ha : Allowed quiet s e) (hs : step (readHandler max) s e = some s')
    (hp : next hello max p s s' e = some p') : Reach hello max quiet closeTimeout mem p' s'

/-! ### Client and server together -/

/-- The client and its connection, the server and its connection. -/
structure Pair where
  pc : Phase
  c : Sys
  ps : Echo.Phase
  s : Sys

/-- What the network may do to a side: data arrives that the other side has sent and that has not arrived yet; the end of the stream arrives when everything has arrived and the other side has closed. -/
def Arrives (self other : Sys) : Ev → Prop
  | .peerSends d => Socket.sent self.sock.log ++ d <+: other.sock.outgoing
  | .peerCloses => other.br.closed = true ∧ Socket.sent self.sock.log = other.sock.outgoing
  | _ => True

/-- The executions of both programs, connected by a network. -/
inductive Together (hello : List UInt8) (max : Nat) (quiet closeTimeout : Bool) (memc mems : List UInt8) : Pair → Prop
  | init : Together hello max quiet closeTimeout memc mems ⟨.start, StreamSocket.initial closeTimeout memc, .start, StreamSocket.initial closeTimeout mems⟩
  | client {x : Pair} {p' : Phase} {c' : Sys} {e : Ev} (h : Together hello max quiet closeTimeout memc mems x) (hn : Arrives x.c x.s e) (ha : Allowed quiet x.c e)
    (hs : step (readHandler max) x.c e = some c') (hp : next hello max x.pc x.c c' e = some p') : Together hello max quiet closeTimeout memc mems { x with pc := p', c := c' }
  | server {x : Pair} {p' : Echo.Phase} {s' : Sys} {e : Ev} (h : Together hello max quiet closeTimeout memc mems x) (hn : Arrives x.s x.c e) (ha : Allowed quiet x.s e)
    (hs : step Echo.readHandler x.s e = some s') (hp : Echo.next hello.length x.ps x.s s' e = some p') : Together hello max quiet closeTimeout memc mems { x with ps := p', s := s' }

end Cio.PingPong
