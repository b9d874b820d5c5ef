import Verif.Common
/-
Model of the sockets of the Windows port, /repo/lib/src/platform/windows/socket.c, for one socket, together with what the event loop does
with its packets.

Winsock is the environment.  An overlapped operation that could be started (success or WSA_IO_PENDING) ends at any later time, with or
without success, and its packet is put into the completion port then; `WSAGetOverlappedResult` finds its result.  `CancelIo` makes the
operations that have not ended yet end with WSA_OPERATION_ABORTED.  There is one `OVERLAPPED` for reading and one for writing; starting an
operation clears it, which is undefined while another operation uses it.  Packets of different operations may come in any order.
Operations are numbered.  Lengths are natural numbers (the code cuts them to 32 bits).
-/
namespace Cio.Windows.Socket

abbrev Bytes := List UInt8

/-- How an operation ended. -/
inductive RRes where
  | data (b : Bytes)       -- `recv_bytes` is the length of `b`, which may be zero
  | err (e : Err)          -- an error other than WSA_OPERATION_ABORTED, already negated
  | aborted
  deriving DecidableEq, Repr

inductive WRes where
  | ok (n : Nat)
  | err (e : Err)
  | aborted
  deriving DecidableEq, Repr

/-- An `OVERLAPPED`: unused, used by operation `k`, or operation `k` has ended and its packet is in the completion port. -/
inductive Slot (R : Type) where
  | idle
  | pending (k : Nat)
  | done (k : Nat) (r : R)
  deriving DecidableEq, Repr

/-- `write_event.callback`. -/
inductive Cb where
  | write
  | connect
  deriving DecidableEq, Repr

inductive Obs where
  | read (k space : Nat)                      -- read number `k` was started, into a buffer with this much room
  | write (k len : Nat)                       -- write number `k` was started
  | connect (k : Nat)                         -- connect number `k` was started
  | refused (k : Nat)                         -- operation `k` could not be started (the function returned an error)
  | received (k : Nat) (b : Bytes)            -- winsock has received the bytes `b` for read `k`
  | eof (k : Nat)                             -- winsock has seen the end of the connection instead
  | recvFailed (k : Nat) (e : Err)            -- read `k` has failed
  | sent (k n : Nat)                          -- winsock has taken `n` bytes for write `k`
  | sendFailed (k : Nat) (e : Err)            -- write `k` has failed
  | connected (k : Nat) (e : Err)             -- connect `k` has ended (also: the following setsockopt failed)
  | readDone (k : Nat) (e : Err) (b : Bytes)  -- the read handler given with `k` is called; `b`: what was added to its buffer
  | writeDone (k : Nat) (e : Err) (n : Nat)   -- the write handler given with `k` is called
  | connectDone (k : Nat) (e : Err)           -- the connect handler given with `k` is called
  | close                                     -- `cio_socket_close` is called
  | closed                                    -- `closesocket`
  | hook                                      -- the close hook is called
  deriving DecidableEq, Repr

/-- What is still to be done, innermost first. -/
inductive Item where
  | user                 -- user code
  | afterConnect         -- socket.c 341: the end of `cio_socket_connect`
  deriving DecidableEq, Repr

/-- `struct cio_socket`: `rUse`, `wUse` are `overlapped_operations_in_use` of the two events, `rHandler`, `wHandler`, `cHandler` the
operations with which the handlers were set (`none`: not initialised), `rSpace` the room in the buffer of the last read, `wLen` the length of
the last write, `wConn`: the last operation of the write event was a connect, `alive` says that the object exists (the close hook may free it). -/
structure St where
  rSlot : Slot RRes
  rSpace : Nat
  rUse : Nat
  rHandler : Option Nat
  wSlot : Slot WRes
  wLen : Nat
  wConn : Bool
  wUse : Nat
  wHandler : Option Nat
  cHandler : Option Nat
  cb : Cb
  alive : Bool
  next : Nat
  stack : List Item
  ub : Bool
  log : List Obs
  deriving DecidableEq, Repr

/-- How the start of a connect goes. -/
inductive Start where
  | pending
  | atOnce           -- ConnectEx returns TRUE
  | failed           -- bind, WSAIoctl or ConnectEx fail
  deriving DecidableEq, Repr

inductive Move where
  | enter                                -- the event loop runs some other user code
  | leave                                -- the user code on top of the stack returns
  | read (space : Nat) (ok : Bool)       -- user code starts a read; `ok`: WSARecv succeeds
  | write (len : Nat) (ok : Bool)        -- user code starts a write; `ok`: WSASend succeeds
  | connect (r : Start)                  -- user code starts a connect
  | close                                -- user code closes the socket
  | received (b : Bytes)                 -- the pending read ends with `b`
  | eof                                  -- the pending read ends at the end of the connection
  | recvFailed (e : Err)                 -- the pending read fails
  | sent (n : Nat)                       -- the pending write ends
  | sendFailed (e : Err)                 -- the pending write fails
  | connected (e : Err)                  -- the pending connect ends
  | readEvent                            -- the event loop takes out the packet of the read
  | writeEvent                           -- the event loop takes out the packet of the write or connect
  | continue                             -- the library code on top of the stack goes on
  deriving DecidableEq, Repr

/-- `try_free`, socket.c 48-56. -/
def tryFree (s : St) : St :=
  if s.rUse = 0 ∧ s.wUse = 0 then { s with alive := false, log := s.log ++ [.closed, .hook] } else s

/-- `stream_read`, socket.c 94-123. -/
def read (s : St) (space : Nat) (ok : Bool) : St :=
  let k := s.next
  let s := { s with next := s.next + 1, rHandler := some k, rSpace := space }
  if s.rSlot ≠ .idle then { s with ub := true }
  else if ok then { s with rSlot := .pending k, rUse := s.rUse + 1, log := s.log ++ [.read k space] }
  else { s with log := s.log ++ [.refused k] }

/-- `stream_write`, socket.c 149-188. -/
def write (s : St) (len : Nat) (ok : Bool) : St :=
  let k := s.next
  let s := { s with next := s.next + 1, wHandler := some k, wLen := len, wConn := false }
  if s.wSlot ≠ .idle then { s with ub := true }
  else if ok then { s with wSlot := .pending k, wUse := s.wUse + 1, log := s.log ++ [.write k len] }
  else { s with log := s.log ++ [.refused k] }

/-- `cio_socket_connect`, socket.c 280-343.  When ConnectEx returns TRUE its packet is queued nevertheless. -/
def connect (s : St) (r : Start) : St :=
  let k := s.next
  let s := { s with next := s.next + 1, wConn := true }
  if s.wSlot ≠ .idle then { s with ub := true }
  else
    match r with
    | .failed => { s with log := s.log ++ [.refused k] }
    | .pending => { s with wSlot := .pending k, wUse := s.wUse + 1, cHandler := some k, cb := .connect, log := s.log ++ [.connect k] }
    | .atOnce =>
      { s with wSlot := .done k (.ok 0), stack := .user :: .afterConnect :: s.stack,
               log := s.log ++ [.connect k, .connected k SUCCESS, .connectDone k SUCCESS] }

/-- `CancelIo` on a slot. -/
def Slot.cancel {R : Type} (a : R) : Slot R → Slot R
  | .pending k => .done k a
  | x => x

/-- `cio_socket_close`, socket.c 240-251. -/
def close (s : St) : St :=
  tryFree { s with rSlot := s.rSlot.cancel .aborted, wSlot := s.wSlot.cancel .aborted, log := s.log ++ [.close] }

/-- The call of the read handler at the end of `read_callback`, socket.c 91. -/
def callRead (s : St) (e : Err) (b : Bytes) : St :=
  match s.rHandler with
  | none => { s with ub := true }
  | some k => { s with log := s.log ++ [.readDone k e b], stack := .user :: s.stack }

/-- `read_callback`, socket.c 64-92. -/
def readEvent (s : St) (r : RRes) : St :=
  let s := { s with rSlot := .idle, rUse := s.rUse - 1 }
  match r with
  | .aborted => tryFree s
  | .err e => callRead s e []
  | .data b => if b.length = 0 then callRead s EOF [] else callRead s SUCCESS b

/-- The call of the write handler at the end of `write_callback`, socket.c 146. -/
def callWrite (s : St) (e : Err) (n : Nat) : St :=
  match s.wHandler with
  | none => { s with ub := true }
  | some k => { s with log := s.log ++ [.writeDone k e n], stack := .user :: s.stack }

/-- `write_callback`, socket.c 125-147. -/
def writeCallback (s : St) (r : WRes) : St :=
  let s := { s with wSlot := .idle, wUse := s.wUse - 1 }
  match r with
  | .aborted => tryFree s
  | .err e => callWrite s e 0
  | .ok n => callWrite s SUCCESS n

/-- Calls of the connect handler in `connect_callback`. -/
def callConnect (s : St) (e : Err) : St :=
  match s.cHandler with
  | none => { s with ub := true }
  | some k => { s with log := s.log ++ [.connectDone k e], stack := .user :: s.stack }

/-- `connect_callback`, socket.c 253-278.  A failure of the `setsockopt` in lines 269-274 is treated as a failure of the connect. -/
def connectCallback (s : St) (r : WRes) : St :=
  let s := { s with wSlot := .idle, wUse := s.wUse - 1 }
  match r with
  | .aborted => callConnect s OPERATION_ABORTED
  | .err e => callConnect s e
  | .ok _ => callConnect { s with cb := .write } SUCCESS

/-- `cio_eventloop_run`, iocp.c 96-100, 109-110, for the packet of the write event. -/
def writeEvent (s : St) (r : WRes) : St :=
  match s.cb with
  | .write => writeCallback s r
  | .connect => connectCallback s r

/-- One step; `none` if the move is not possible.  User code only calls the functions while the socket exists. -/
def step (s : St) (m : Move) : Option St :=
  if s.ub then none
  else
    match m with
    | .enter => if s.stack = [] then some { s with stack := [.user] } else none
    | .leave =>
      match s.stack with
      | .user :: k => some { s with stack := k }
      | _ => none
    | .continue =>
      match s.stack with
      | .afterConnect :: k => some (if s.alive then { s with wUse := s.wUse + 1, stack := k } else { s with ub := true })
      | _ => none
    | .read space ok => if s.stack.head? = some .user ∧ s.alive = true then some (read s space ok) else none
    | .write len ok => if s.stack.head? = some .user ∧ s.alive = true then some (write s len ok) else none
    | .connect r => if s.stack.head? = some .user ∧ s.alive = true then some (connect s r) else none
    | .close => if s.stack.head? = some .user ∧ s.alive = true then some (close s) else none
    | .received b =>
      match s.rSlot with
      | .pending k => if b.length ≤ s.rSpace ∧ (b = [] → s.rSpace = 0) then some { s with rSlot := .done k (.data b), log := s.log ++ [.received k b] } else none
      | _ => none
    | .eof =>
      match s.rSlot with
      | .pending k => some { s with rSlot := .done k (.data []), log := s.log ++ [.eof k] }
      | _ => none
    | .recvFailed e =>
      match s.rSlot with
      | .pending k => if e < 0 ∧ e ≠ OPERATION_ABORTED then some { s with rSlot := .done k (.err e), log := s.log ++ [.recvFailed k e] } else none
      | _ => none
    | .sent n =>
      match s.wSlot, s.wConn with
      | .pending k, false => if n ≤ s.wLen then some { s with wSlot := .done k (.ok n), log := s.log ++ [.sent k n] } else none
      | _, _ => none
    | .sendFailed e =>
      match s.wSlot, s.wConn with
      | .pending k, false => if e < 0 ∧ e ≠ OPERATION_ABORTED then some { s with wSlot := .done k (.err e), log := s.log ++ [.sendFailed k e] } else none
      | _, _ => none
    | .connected e =>
      match s.wSlot, s.wConn with
      | .pending k, true =>
        if e ≤ 0 then some { s with wSlot := .done k (if e = 0 then .ok 0 else .err e), log := s.log ++ [.connected k e] } else none
      | _, _ => none
    | .readEvent =>
      match s.stack, s.rSlot with
      | [], .done _ r => some (if s.alive then readEvent s r else { s with ub := true })
      | _, _ => none
    | .writeEvent =>
      match s.stack, s.wSlot with
      | [], .done _ r => some (if s.alive then writeEvent s r else { s with ub := true })
      | _, _ => none

/-- `cio_windows_socket_init`, socket.c 190-214. -/
def initial : St :=
  { rSlot := .idle, rSpace := 0, rUse := 0, rHandler := none, wSlot := .idle, wLen := 0, wConn := false, wUse := 0, wHandler := none, cHandler := none,
    cb := .write, alive := true, next := 0, stack := [], ub := false, log := [] }

/-- A sequence of moves. -/
def run : St → List Move → Option St
  | s, [] => some s
  | s, m :: ms => (step s m).bind fun s => run s ms

end Cio.Windows.Socket
