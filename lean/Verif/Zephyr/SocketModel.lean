import Verif.Common
/-
Model of the sockets of the Zephyr port, /repo/lib/src/platform/zephyr/socket.c, for one connected socket, together with what the event
loop does with its events.

The network stack of Zephyr is the environment: after `net_context_recv` it may call `tcp_received` once with a packet, with the end of
the connection or with an error (the callback resets `recv_cb`); after `net_context_sendmsg` it may call `tcp_sent`, any number of
times with status 0 and once with another status (the callback then resets `send_cb`).  After `net_context_put` it calls neither.
-/
namespace Cio.Zephyr.Socket

abbrev Bytes := List UInt8

/-- Which callback the notifier of the socket has; there is one notifier only. -/
inductive Cb where
  | read
  | written
  deriving DecidableEq, Repr

inductive Obs where
  | read (k space : Nat)                      -- operation `k`: a read into a buffer with this much room was started
  | write (k len : Nat)                       -- operation `k`: a write of `len` bytes was started
  | refused (k : Nat)                         -- operation `k` was refused by the network stack (the function returned an error)
  | packet (b : Bytes)                        -- the stack delivers a packet
  | eof                                       -- the stack reports the end of the connection
  | failed (e : Err)                          -- the stack reports an error instead of a packet
  | sent (status : Int)                       -- the stack reports on the write
  | readDone (k : Nat) (e : Err) (b : Bytes)  -- the read handler of operation `k` is called; `b`: what was put into its buffer
  | writeDone (k : Nat) (e : Err) (n : Nat)   -- the write handler of operation `k` is called
  | closed                                    -- the socket is closed and the close hook is called
  deriving DecidableEq, Repr

/-- `struct cio_socket`: `readOp`, `writeOp` are the operations that set the read and the write handler (`none`: not initialised), `room` and
`filled` describe the buffer of the last read, `cb` is `ev.callback`, `queued` counts the messages in the queue of the event loop that
point to the notifier, `user` says that user code is running. -/
structure St where
  readOp : Option Nat
  room : Nat
  filled : Bytes
  readStatus : Err
  writeOp : Option Nat
  bytesToSend : Nat
  sendStatus : Int
  cb : Option Cb
  recvCb : Bool
  sendCb : Bool
  queued : Nat
  alive : Bool
  user : Bool
  next : Nat
  ub : Bool
  log : List Obs
  deriving DecidableEq, Repr

inductive Move where
  | enter                              -- the event loop runs some other user code
  | leave                              -- the user code returns
  | read (space : Nat) (ok : Bool)     -- user code starts a read; `ok`: net_context_recv succeeds
  | write (len : Nat) (ok : Bool)      -- user code starts a write; `ok`: net_context_sendmsg succeeds
  | close                              -- user code closes the socket
  | packet (b : Bytes)                 -- the stack calls `tcp_received` with a packet
  | eof                                -- ... with neither packet nor error
  | failed (e : Err)                   -- ... with an error, or `net_pkt_read` fails
  | sent (status : Int)                -- the stack calls `tcp_sent`
  | event                              -- the event loop takes out a message of the socket
  deriving DecidableEq, Repr

/-- `stream_read`, socket.c 95-115. -/
def read (s : St) (space : Nat) (ok : Bool) : St :=
  let k := s.next
  let s := { s with readOp := some k, room := space, filled := [], cb := some .read, next := s.next + 1 }
  if ok then { s with recvCb := true, log := s.log ++ [.read k space] }
  else { s with log := s.log ++ [.refused k] }

/-- `stream_write`, socket.c 147-190. -/
def write (s : St) (len : Nat) (ok : Bool) : St :=
  let k := s.next
  let s := { s with writeOp := some k, cb := some .written, bytesToSend := len, next := s.next + 1 }
  if ok then { s with sendCb := true, log := s.log ++ [.write k len] }
  else { s with log := s.log ++ [.refused k] }

/-- `tcp_received`, socket.c 53-85, with a packet: what does not fit into the buffer is dropped with the packet. -/
def packet (s : St) (b : Bytes) : St :=
  let data := b.take (min b.length s.room)
  { s with recvCb := false, readStatus := SUCCESS, filled := s.filled ++ data, room := s.room - data.length, queued := s.queued + 1,
           log := s.log ++ [.packet b] }

/-- `tcp_received`, socket.c 61-63. -/
def eof (s : St) : St := { s with recvCb := false, readStatus := EOF, queued := s.queued + 1, log := s.log ++ [.eof] }

/-- `tcp_received`, socket.c 70-71, 77-79. -/
def failed (s : St) (e : Err) : St := { s with recvCb := false, readStatus := e, queued := s.queued + 1, log := s.log ++ [.failed e] }

/-- `tcp_sent`, socket.c 131-145 (`send_status` is a `size_t`; the conversions to it and back to `int` keep the value). -/
def sent (s : St) (status : Int) : St :=
  let s := { s with log := s.log ++ [.sent status] }
  if status = 0 then s
  else { s with sendStatus := status, sendCb := false, queued := s.queued + 1 }

/-- `read_callback`, socket.c 87-93. -/
def readCallback (s : St) : St :=
  match s.readOp with
  | none => { s with ub := true }
  | some k => { s with user := true, log := s.log ++ [.readDone k s.readStatus s.filled] }

/-- `written_callback`, socket.c 117-129. -/
def writtenCallback (s : St) : St :=
  match s.writeOp with
  | none => { s with ub := true }
  | some k =>
    if s.sendStatus < 0 then { s with user := true, log := s.log ++ [.writeDone k s.sendStatus 0] }
    else { s with user := true, log := s.log ++ [.writeDone k SUCCESS s.bytesToSend] }

/-- `cio_eventloop_run`, eventloop.c 54-57; the notifier of a socket is never marked as removed. -/
def event (s : St) : St :=
  let s := { s with queued := s.queued - 1 }
  if s.alive = false then { s with ub := true }
  else
    match s.cb with
    | none => { s with ub := true }
    | some .read => readCallback s
    | some .written => writtenCallback s

/-- `cio_socket_close`, socket.c 198-232: the two branches do the same.  The close hook may free the socket. -/
def close (s : St) : St := { s with recvCb := false, sendCb := false, alive := false, log := s.log ++ [.closed] }

/-- One step; `none` if the move is not possible.  User code only calls the functions while the socket exists. -/
def step (s : St) (m : Move) : Option St :=
  if s.ub then none
  else
    match m with
    | .enter => if s.user then none else some { s with user := true }
    | .leave => if s.user then some { s with user := false } else none
    | .read space ok => if s.user && s.alive then some (read s space ok) else none
    | .write len ok => if s.user && s.alive then some (write s len ok) else none
    | .close => if s.user && s.alive then some (close s) else none
    | .packet b => if s.recvCb then some (packet s b) else none
    | .eof => if s.recvCb then some (eof s) else none
    | .failed e => if s.recvCb then some (failed s e) else none
    | .sent status => if s.sendCb then some (sent s status) else none
    | .event => if s.user = false && s.queued ≠ 0 then some (event s) else none

/-- `cio_zephyr_socket_init`, socket.c 234-259. -/
def initial : St :=
  { readOp := none, room := 0, filled := [], readStatus := SUCCESS, writeOp := none, bytesToSend := 0, sendStatus := 0, cb := none,
    recvCb := false, sendCb := false, queued := 0, alive := true, user := false, next := 0, ub := false, log := [] }

/-- A sequence of moves. -/
def run : St → List Move → Option St
  | s, [] => some s
  | s, m :: ms => (step s m).bind fun s => run s ms

end Cio.Zephyr.Socket
