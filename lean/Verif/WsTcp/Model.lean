import Verif.StreamSocket.Progress
import Verif.WsStream.RoundTrip
/-
Two WebSockets (/repo/lib/src/websocket.c) talking to each other: each on a buffered stream (buffered_stream.c) on a Linux socket (linux/socket.c), the two sockets
connected by the network.  The parts are those modelled before: `Cio.WsStream` (receiving half of the WebSocket on the stream), `Cio.StreamSocket` (stream on the
socket; its writes are the frames), here with a network in between that carries the bytes the operating system has accepted at one side to the other side, in order, in
pieces of any size and as late as it likes.

Simplifications: those of `Cio.StreamSocket` and `Cio.WsStream`; the WebSockets start on empty streams (no HTTP before).
-/
namespace Cio.WsTcp
open StreamSocket (Sys)
open WsStream (Env handler jobOf)

/-- The stream belongs to a WebSocket: reads are those of the WebSocket (`WsStream.Ev.next`), it alone consumes. -/
def Proper (e : Env) (s : Sys) : StreamSocket.Ev → Prop
  | .user (.read j) _ => s.br.job = none ∧ (e.sess s.br).rx.cont ≠ .stopped ∧ j = jobOf (e.sess s.br).rx
  | .user (.consume _) _ => False
  | _ => True

/-- One side alone: a WebSocket on a stream on a socket.  As in `StreamSocket.Reach`, a lingering stream is not closed while a write is under way.  That the stream
is used properly is no assumption here. -/
inductive End (quiet : Bool) (e : Env) (c : Bool) (mem : List UInt8) : Sys → Prop
  | init : End quiet e c mem (StreamSocket.initial c mem)
  | step {s s' : Sys} {x : StreamSocket.Ev} (h : End quiet e c mem s) (ha : StreamSocket.Allowed quiet s x) (hp : Proper e s x)
    (hs : StreamSocket.step (handler e) s x = some s') (hc : s'.br.closed = true → s.br.closed = false → s'.cur = none ∨ c = false) : End quiet e c mem s'

/-- The two sides, and how many of the bytes one side's operating system has accepted have arrived at the other one. -/
structure Net where
  sys : Bool → Sys
  carried : Bool → Nat

/-- The bytes of side `i` that are on their way. -/
def Net.flying (n : Net) (i : Bool) : List UInt8 := (n.sys i).sock.outgoing.drop (n.carried i)

inductive Ev where
  | app (i : Bool) (x : StreamSocket.Ev)   -- something happens at side `i`
  | carry (i : Bool) (k : Nat)             -- up to `k` bytes of side `i` arrive at the other side
  | fin (i : Bool)                         -- the end of the stream of side `i` arrives at the other side

/-- What the peer does is not for `app` to say. -/
def fromPeer : StreamSocket.Ev → Bool
  | .peerSends _ => true
  | .peerCloses => true
  | _ => false

def set {α : Type} (f : Bool → α) (i : Bool) (v : α) : Bool → α := fun j => if j = i then v else f j

/-- One step.  The end of the stream arrives after all bytes, once the side has closed the stream (shutdown or close of the descriptor, linux/socket.c 311-355). -/
def step (E : Bool → Env) (n : Net) : Ev → Option Net
  | .app i x => if fromPeer x then none else (StreamSocket.step (handler (E i)) (n.sys i) x).map fun s => { n with sys := set n.sys i s }
  | .carry i k =>
    let d := (n.flying i).take k
    (StreamSocket.step (handler (E !i)) (n.sys !i) (.peerSends d)).map fun s => { sys := set n.sys (!i) s, carried := set n.carried i (n.carried i + d.length) }
  | .fin i =>
    if (n.sys i).br.closed && (n.flying i).isEmpty then
      (StreamSocket.step (handler (E !i)) (n.sys !i) .peerCloses).map fun s => { n with sys := set n.sys (!i) s }
    else none

/-- Two fresh WebSockets; side `i` with close timeout (`c i`) and read buffer `mem i`. -/
def initial (c : Bool → Bool) (mem : Bool → List UInt8) : Net := { sys := fun i => StreamSocket.initial (c i) (mem i), carried := fun _ => 0 }

/-- What is assumed at a step: of the side where it happens, what `End` says. -/
def Allowed (quiet : Bool) (E : Bool → Env) (c : Bool → Bool) (n : Net) : Ev → Prop
  | .app i x => StreamSocket.Allowed quiet (n.sys i) x ∧ Proper (E i) (n.sys i) x ∧
      ∀ s', StreamSocket.step (handler (E i)) (n.sys i) x = some s' → s'.br.closed = true → (n.sys i).br.closed = false → s'.cur = none ∨ c i = false
  | _ => True

inductive Reach (quiet : Bool) (E : Bool → Env) (c : Bool → Bool) (mem : Bool → List UInt8) : Net → Prop
  | init : Reach quiet E c mem (initial c mem)
  | step {n n' : Net} {x : Ev} (h : Reach quiet E c mem n) (ha : Allowed quiet E c n x) (hs : step E n x = some n') : Reach quiet E c mem n'

end Cio.WsTcp
