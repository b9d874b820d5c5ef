import Verif.PingPong.Model
/-
The program /repo/examples/socket_two_connects.c: a client connects, writes `HELLO` and closes; when its socket is closed, the close hook lets a second client do the same; when that one's socket is
closed, the event loop is cancelled.  The server, in the same program, reads messages of the size of `HELLO` and closes a connection when it is told of its end or of an error.

Both sides of a connection are applications of a buffered stream on a Linux socket (model `Cio.StreamSocket`); a network connects them, as in `Cio.PingPong`.  `hello` is `HELLO` (6 bytes in the
example), the read buffers have 128 bytes there, the close timeout is a second.

Simplifications: those of `Cio.StreamSocket`; the program is taken from where `cio_socket_connect` has returned success in `main`; accepting is not modelled but for the time it takes.
-/
namespace Cio.TwoConnects
open BufferedRead (Handler)
open StreamSocket (Sys Ev Write step Allowed)

/-! ### A client -/

/-- What a client does next. -/
inductive Phase where
  | start      -- connected: `handle_connect` runs, socket_two_connects.c 232-255
  | writing
  | toClose    -- `client_handle_write` runs (171-177), or `handle_connect` was told of an error, or its write was refused
  | closed
  deriving DecidableEq, Repr

/-- The clients never read. -/
def noReads : Handler := fun _ => []

/-- The program of a client.  `handle_connect` (232-255) writes `HELLO`, or closes the socket if it is told of an error or the write is refused; `client_handle_write` (171-177) closes, whatever it is
told.  (`cio_socket_close` and `cio_buffered_stream_close` do the same here.) -/
def next (hello : List UInt8) (p : Phase) (s s' : Sys) : Ev → Option Phase
  | .enter => if p = .start ∨ p = .toClose then some p else none
  | .leave => if p = .writing ∨ p = .closed then some p else none
  | .write chain => if p = .start ∧ chain = [⟨Echo.elem, hello⟩] then some .writing else none
  | .send _ | .writable _ => if s'.done.length = s.done.length then some p else some .toClose
  | .user a _ => if p = .toClose ∧ a = .close then some .closed else none
  | _ => some p

/-! ### The server's side of a connection -/

/-- `server_handle_read`, socket_two_connects.c 102-128. -/
def serverReads (unit : Nat) : Handler := fun w =>
  match w.calls.getLast? with
  | some c => if c.err = SUCCESS then [.consume c.num, .read (.atLeast unit)] else [.close]
  | none => []

/-- `handle_accept` (130-167) starts the first read; everything else is done by the read handler.  `b`: it has been called. -/
def serverNext (unit : Nat) (b : Bool) : Ev → Option Bool
  | .enter => if b = false then some b else none
  | .leave => if b = true then some b else none
  | .user a _ => if b = false ∧ a = .read (.atLeast unit) then some true else none
  | .write _ => none
  | _ => some b

/-! ### A connection -/

/-- A client and the server's side of its connection. -/
structure Pair where
  p : Phase
  c : Sys
  b : Bool
  s : Sys

/-- The executions of a client and of the server on its connection.  If the attempt to connect failed (`real = false`) there is no server. -/
inductive Together (real : Bool) (hello : List UInt8) (quiet ct : Bool) (memc mems : List UInt8) : Pair → Prop
  | init : Together real hello quiet ct memc mems ⟨if real then .start else .toClose, StreamSocket.initial ct memc, false, StreamSocket.initial ct mems⟩
  | client {x : Pair} {p' : Phase} {c' : Sys} {e : Ev} (h : Together real hello quiet ct memc mems x) (hn : PingPong.Arrives x.c x.s e) (ha : Allowed quiet x.c e)
    (hs : step noReads x.c e = some c') (hp : next hello x.p x.c c' e = some p') : Together real hello quiet ct memc mems { x with p := p', c := c' }
  | server {x : Pair} {b' : Bool} {s' : Sys} {e : Ev} (h : Together real hello quiet ct memc mems x) (hr : real = true) (hn : PingPong.Arrives x.s x.c e) (ha : Allowed quiet x.s e)
    (hs : step (serverReads hello.length) x.s e = some s') (hp : serverNext hello.length x.b e = some b') : Together real hello quiet ct memc mems { x with b := b', s := s' }

/-! ### The program -/

/-- A client of the program. -/
inductive Client where
  | unused                          -- not yet started, or it could not be initialised
  | connecting
  | up (real : Bool) (x : Pair)     -- the attempt succeeded (`real`) or failed

/-- Where the connection starts when the attempt has been answered. -/
def begun (ct : Bool) (memc mems : List UInt8) (real : Bool) : Client :=
  .up real ⟨if real then .start else .toClose, StreamSocket.initial ct memc, false, StreamSocket.initial ct mems⟩

/-- What comes of the second client when the first one's close hook runs (`client_socket_close_hook`, socket_two_connects.c 187-230): it cannot be initialised (`none`), `cio_socket_connect` is refused
and the socket is closed (`refused`), the connection is there at once or will be. -/
inductive Start where
  | failed | refused | atOnce | later
  deriving DecidableEq, Repr

def Start.client (ct : Bool) (memc mems : List UInt8) : Start → Client
  | .failed => .unused
  | .refused => begun ct memc mems false
  | .atOnce => begun ct memc mems true
  | .later => .connecting

/-- The calls of `cio_eventloop_cancel` in the first client's close hook, socket_two_connects.c 226-229. -/
def Start.cancels : Start → Nat
  | .failed | .refused => 1
  | .atOnce | .later => 0

structure Prog where
  first : Client
  second : Client
  launched : Option Start     -- what became of the second client
  cancels : Nat               -- calls of `cio_eventloop_cancel`
  signals : Nat
  ended : Bool                -- `cio_eventloop_run` has returned

/-- The close hook of this socket is called. -/
def hooked (s s' : Sys) : Bool := decide (s'.sock.log.count .hook ≠ s.sock.log.count .hook)

/-- How one connection moves. -/
inductive Moves (hello : List UInt8) (quiet : Bool) : Client → Client → Bool → Prop
  | client {real : Bool} {x : Pair} {p' : Phase} {c' : Sys} {e : Ev} (hn : PingPong.Arrives x.c x.s e) (ha : Allowed quiet x.c e)
    (hs : step noReads x.c e = some c') (hp : next hello x.p x.c c' e = some p') : Moves hello quiet (.up real x) (.up real { x with p := p', c := c' }) (hooked x.c c')
  | server {x : Pair} {b' : Bool} {s' : Sys} {e : Ev} (hn : PingPong.Arrives x.s x.c e) (ha : Allowed quiet x.s e)
    (hs : step (serverReads hello.length) x.s e = some s') (hp : serverNext hello.length x.b e = some b') : Moves hello quiet (.up true x) (.up true { x with b := b', s := s' }) false

/-- The executions of the program. -/
inductive Reach (hello : List UInt8) (quiet ct : Bool) (memc mems : List UInt8) : Prog → Prop
  /-- `cio_socket_connect` has returned success: the connection is there at once, or will be. -/
  | init (atOnce : Bool) : Reach hello quiet ct memc mems ⟨if atOnce then begun ct memc mems true else .connecting, .unused, none, 0, 0, false⟩
  | answered1 {x : Prog} (h : Reach hello quiet ct memc mems x) (he : x.ended = false) (hc : x.first = .connecting) (real : Bool) :
    Reach hello quiet ct memc mems { x with first := begun ct memc mems real }
  | answered2 {x : Prog} (h : Reach hello quiet ct memc mems x) (he : x.ended = false) (hc : x.second = .connecting) (real : Bool) :
    Reach hello quiet ct memc mems { x with second := begun ct memc mems real }
  | first {x : Prog} {c : Client} (h : Reach hello quiet ct memc mems x) (he : x.ended = false) (hm : Moves hello quiet x.first c false) : Reach hello quiet ct memc mems { x with first := c }
  /-- The first client's close hook is called: the second one begins. -/
  | hook1 {x : Prog} {c : Client} (h : Reach hello quiet ct memc mems x) (he : x.ended = false) (hm : Moves hello quiet x.first c true) (r : Start) :
    Reach hello quiet ct memc mems { x with first := c, second := r.client ct memc mems, launched := some r, cancels := x.cancels + r.cancels }
  | second {x : Prog} {c : Client} (h : Reach hello quiet ct memc mems x) (he : x.ended = false) (hm : Moves hello quiet x.second c false) : Reach hello quiet ct memc mems { x with second := c }
  /-- The second client's close hook is called: `second_client_socket_close_hook`, socket_two_connects.c 179-183. -/
  | hook2 {x : Prog} {c : Client} (h : Reach hello quiet ct memc mems x) (he : x.ended = false) (hm : Moves hello quiet x.second c true) :
    Reach hello quiet ct memc mems { x with second := c, cancels := x.cancels + 1 }
  | signal {x : Prog} (h : Reach hello quiet ct memc mems x) : Reach hello quiet ct memc mems { x with cancels := x.cancels + 1, signals := x.signals + 1 }
  /-- The event loop sees that it was cancelled. -/
  | stop {x : Prog} (h : Reach hello quiet ct memc mems x) (hc : 0 < x.cancels) : Reach hello quiet ct memc mems { x with ended := true }

end Cio.TwoConnects
