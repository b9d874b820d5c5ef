import Verif.BufferedRead.Props
import Verif.WsRecv.Props
/-
The receiving half of websocket.c (`Cio.WsRecv`) on top of the buffered stream (`Cio.BufferedRead`), both of them as modelled before: the read
handlers of websocket.c are what the buffered stream calls, and what they do to the stream (consume, ask for the next bytes) is done to
the modelled stream.  Nothing is assumed about when bytes arrive, how many at a time, when the application asks for the next data and when
the pong to a ping has been written.
-/
namespace Cio.WsStream
open BufferedRead (Job UAct World Call)
open WsRecv (Rx Out)

/-- The read that a handler registers: `cio_buffered_stream_read_at_least` 1 for `get_header` (websocket.c 488, 525 and 924) and
`get_first_length` (802), 2 for `get_length16` (721), 8 for `get_length64` (723), 4 for `get_mask` (640); in `read_payload` (600-621) the whole
payload of a control frame, otherwise `read_at_most` what remains of the frame, as in `cio_websocket_read_message` (926). -/
def jobOf (rx : Rx) : Job :=
  match rx.cont with
  | .header | .firstLen | .stopped => .atLeast 1
  | .len16 => .atLeast 2
  | .len64 => .atLeast 8
  | .mask => .atLeast 4
  | .payload => if WsRecv.isControl rx.opcode then .atLeast rx.remaining else .atMost rx.remaining

/-- The receiver, what it has shown so far, what the last handler consumed, and whether the next read may come later: after data has been
handed to the application, which calls `cio_websocket_read_message` when it likes, and after a ping (`pong_frame_written`). -/
structure Sess where
  rx : Rx
  outs : List Out := []
  used : Nat := 0
  mayPause : Bool := false

/-- After these the receiver does not read on by itself. -/
def pausing : Out → Bool
  | .chunk .. => true
  | .pong _ => true
  | _ => false

/-- One invocation of a read handler: `handled_read_error` (websocket.c 565-578) or the handler itself.  `base` is the address of the buffer. -/
def react (o : Endian.Order) (base : Nat) (s : Sess) (c : Call) : Sess :=
  if c.err ≠ SUCCESS then
    { rx := { s.rx with cont := .stopped }, outs := s.outs ++ [.fail (if c.err = EOF then 1000 else 1011)], used := 0, mayPause := false }
  else
    match WsRecv.step o { s.rx with addr := base + c.offset } c.view with
    | none => { s with used := 0, mayPause := false }
    | some (rx, rest, outs) => { rx := rx, outs := s.outs ++ outs, used := c.view.length - rest.length, mayPause := outs.any pausing }

/-- The websocket after these invocations of its handlers. -/
def sess (o : Endian.Order) (base : Nat) (rx : Rx) (cs : List Call) : Sess := cs.foldl (react o base) { rx := rx }

/-- What surrounds the receiver: byte order, address of the buffer, the receiver after `cio_websocket_init`, and the will of application and
peer: whether the next read waits, whether the connection is closed from within the handler. -/
structure Env where
  o : Endian.Order
  base : Nat
  server : Bool
  selfClose : Bool
  utf8 : Utf8.State
  waits : World → Bool
  closes : World → Bool

/-- The websocket as it is now: what the invocations of its handlers made of it. -/
def Env.sess (e : Env) (w : World) : Sess := WsStream.sess e.o e.base (WsRecv.start e.server e.selfClose e.utf8) w.calls

/-- The read handlers of websocket.c as the buffered stream sees them: they consume what they used and register the next read. -/
def handler (e : Env) : BufferedRead.Handler := fun w =>
  let s := e.sess w
  .consume s.used ::
    if s.rx.cont = .stopped then (if e.closes w then [.close] else [])
    else if s.mayPause && e.waits w then []
    else [.read (jobOf s.rx)]

/-- What can happen: the next read is asked for (`cio_websocket_read_message` or the pong has been written), the connection is closed, the buffered
stream runs, the transport delivers or fails. -/
inductive Ev where
  | next
  | close
  | loop (rs : Err)
  | deliver (bs : List UInt8)
  | fail (err : Err)

/-- One step.  The next read is asked for once, and not after the receiver has stopped. -/
def step (e : Env) (w : World) : Ev → Option World
  | .next => if w.job = none ∧ (e.sess w).rx.cont ≠ .stopped then BufferedRead.step (handler e) w (.user (.read (jobOf (e.sess w).rx))) else none
  | .close => BufferedRead.step (handler e) w (.user .close)
  | .loop rs => BufferedRead.step (handler e) w (.loop rs)
  | .deliver bs => BufferedRead.step (handler e) w (.deliver bs)
  | .fail err => BufferedRead.step (handler e) w (.fail err)

def run (e : Env) : World → List Ev → Option World
  | w, [] => some w
  | w, x :: xs => do
    let w ← step e w x
    run e w xs

/-- What the transport delivered, one entry per delivery. -/
def deliveries (xs : List Ev) : List (List UInt8) := xs.filterMap fun | .deliver bs => some bs | _ => none

end Cio.WsStream
