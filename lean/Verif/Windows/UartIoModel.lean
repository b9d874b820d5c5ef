import Verif.Common
/-
Model of reading from, writing to and closing a serial port on Windows, /repo/lib/src/platform/windows/uart.c 45-185, 529-539, together with
what the event loop does with the packets of one port.

The operating system is the environment.  An overlapped operation that could be started ends at any later time, with or without success, and its
packet is put into the completion port then; `CancelIo` makes the operations that have not ended yet end with ERROR_OPERATION_ABORTED.  There
is one `OVERLAPPED` for reading and one for writing.  Operations are numbered.  `WriteFile` may take the bytes at once (as drivers with buffered
I/O do) or while the operation is pending; both are allowed by its documentation.
-/
namespace Cio.Windows.UartIo

abbrev Bytes := List UInt8

/-- How an operation ended. -/
inductive RRes where
  | data (b : Bytes)       -- `recv_bytes` is the length of `b`; zero if the read timed out
  | err (e : Int)          -- an error number other than ERROR_OPERATION_ABORTED
  | aborted
  deriving DecidableEq, Repr

inductive WRes where
  | ok (n : Nat)
  | err (e : Int)
  | aborted
  deriving DecidableEq, Repr

/-- An `OVERLAPPED`: unused, used by operation `k`, or operation `k` has ended and its packet is in the completion port. -/
inductive Slot (R : Type) where
  | idle
  | pending (k : Nat)
  | done (k : Nat) (r : R)
  deriving DecidableEq, Repr

inductive Obs where
  | read (k space : Nat)                      -- read number `k` was started; ReadFile was told of this much room
  | write (k : Nat) (b : Bytes)               -- write number `k` was started; WriteFile was given the bytes `b`
  | refused (k : Nat) (e : Err)               -- operation `k` could not be started: the function returned `e`
  | received (k : Nat) (b : Bytes)            -- the bytes `b` have come in for read `k`
  | timeout (k : Nat)                         -- read `k` has ended without a byte
  | readFailed (k : Nat) (e : Int)            -- read `k` has failed with error number `e`
  | sent (k n : Nat)                          -- `n` bytes were sent for write `k`
  | writeFailed (k : Nat) (e : Int)           -- write `k` has failed with error number `e`
  | readDone (k : Nat) (e : Err) (b : Bytes)  -- the read handler given with `k` is called; `b`: what was added to its buffer
  | writeDone (k : Nat) (e : Err) (n : Nat)   -- the write handler given with `k` is called
  | close                                     -- `cio_uart_close` is called
  | closed                                    -- `CloseHandle`
  | hook                                      -- the close hook is called
  deriving DecidableEq, Repr

/-- `struct cio_uart`: `rUse`, `wUse` are `overlapped_operations_in_use` of the two events, `rHandler`, `wHandler` the operations with which the
handlers were set (`none`: not initialised), `rSpace` the room ReadFile was told of, `wLen` the length of the last write, `wFreed`: the pending
write still has to take its bytes from memory that was given back, `alive`: the object exists (the close hook may free it), `user`: user code is
running. -/
structure St where
  rSlot : Slot RRes
  rSpace : Nat
  rUse : Nat
  rHandler : Option Nat
  wSlot : Slot WRes
  wLen : Nat
  wFreed : Bool
  wUse : Nat
  wHandler : Option Nat
  alive : Bool
  next : Nat
  user : Bool
  ub : Bool
  log : List Obs
  deriving DecidableEq, Repr

/-- How the start of an operation goes: the function fails with an error number, or the operation is under way. -/
inductive Start where
  | failed (e : Int)
  | pending
  deriving DecidableEq, Repr

inductive Move where
  | enter                                      -- the event loop runs some other user code
  | leave                                      -- user code returns
  | read (space : Nat) (r : Start)             -- user code starts a read into a buffer with this much room
  | write (chain : List Bytes) (mem : Bool) (r : Start) (atOnce : Bool)   -- user code starts a write; `mem`: `_malloca` succeeds, `atOnce`: WriteFile takes the bytes at once
  | close                                      -- user code closes the port
  | received (b : Bytes)                       -- the pending read ends with `b`
  | timeout                                    -- the pending read ends without a byte
  | readFailed (e : Int)                       -- the pending read fails
  | sent (n : Nat)                             -- the pending write ends
  | writeFailed (e : Int)                      -- the pending write fails
  | readEvent                                  -- the event loop takes out the packet of the read
  | writeEvent                                 -- the event loop takes out the packet of the write
  deriving DecidableEq, Repr

/-- `(DWORD)` of a `size_t`. -/
def dword (n : Nat) : Nat := n % 4294967296

/-- The length loop of `stream_write`, uart.c 145-150. -/
def totalLength (chain : List Bytes) : Nat := chain.foldl (fun n x => n + x.length) 0

/-- `memcpy(buf + i, x, length)`. -/
def memcpy (buf : Bytes) (i : Nat) (x : Bytes) : Bytes := buf.take i ++ x ++ buf.drop (i + x.length)

/-- The copy loop of `stream_write`, uart.c 157-163: the buffer and `write_index`. -/
def copyLoop (buf : Bytes) (i : Nat) : List Bytes → Bytes
  | [] => buf
  | x :: l => copyLoop (memcpy buf i x) (i + x.length) l

/-- What `WriteFile` is given in uart.c 167: the first `(DWORD)total_write_length` bytes of the buffer (`_malloca` gives it with any contents). -/
def gathered (chain : List Bytes) : Bytes :=
  (copyLoop (List.replicate (totalLength chain) 0) 0 chain).take (dword (totalLength chain))

/-- `try_free`, uart.c 45-53. -/
def tryFree (s : St) : St :=
  if s.rUse = 0 ∧ s.wUse = 0 then { s with alive := false, log := s.log ++ [.closed, .hook] } else s

/-- `stream_read`, uart.c 107-130. -/
def read (s : St) (space : Nat) (r : Start) : St :=
  let k := s.next
  let s := { s with next := s.next + 1, rHandler := some k, rSpace := dword space }
  if s.rSlot ≠ .idle then { s with ub := true }
  else
    match r with
    | .failed e => { s with log := s.log ++ [.refused k (-e)] }
    | .pending => { s with rSlot := .pending k, rUse := s.rUse + 1, log := s.log ++ [.read k (dword space)] }

/-- `stream_write`, uart.c 132-179.  The buffer is given back (line 177) when the operation is under way. -/
def write (s : St) (chain : List Bytes) (mem : Bool) (r : Start) (atOnce : Bool) : St :=
  let k := s.next
  let b := gathered chain
  let s := { s with next := s.next + 1, wHandler := some k, wLen := b.length }
  if mem = false then { s with log := s.log ++ [.refused k NO_BUFFER_SPACE] }
  else
    if s.wSlot ≠ .idle then { s with ub := true }
    else
      match r with
      | .failed e => { s with log := s.log ++ [.refused k (-e)] }
      | .pending => { s with wSlot := .pending k, wFreed := !atOnce, wUse := s.wUse + 1, log := s.log ++ [.write k b] }

/-- `CancelIo` on a slot. -/
def Slot.cancel {R : Type} (a : R) : Slot R → Slot R
  | .pending k => .done k a
  | x => x

/-- `cio_uart_close`, uart.c 529-539. -/
def close (s : St) : St :=
  tryFree { s with rSlot := s.rSlot.cancel .aborted, wSlot := s.wSlot.cancel .aborted, log := s.log ++ [.close] }

/-- The call of the read handler at the end of `read_callback`, uart.c 81. -/
def callRead (s : St) (e : Err) (b : Bytes) : St :=
  match s.rHandler with
  | none => { s with ub := true }
  | some k => { s with log := s.log ++ [.readDone k e b], user := true }

/-- `read_callback`, uart.c 55-82. -/
def readEvent (s : St) (r : RRes) : St :=
  let s := { s with rSlot := .idle, rUse := s.rUse - 1 }
  match r with
  | .aborted => tryFree s
  | .err e => callRead s (-e) []
  | .data b => if b.length = 0 then callRead s EOF [] else callRead s SUCCESS b

/-- The call of the write handler at the end of `write_callback`, uart.c 104. -/
def callWrite (s : St) (e : Err) (n : Nat) : St :=
  match s.wHandler with
  | none => { s with ub := true }
  | some k => { s with log := s.log ++ [.writeDone k e n], user := true }

/-- `write_callback`, uart.c 84-105.  Line 101 negates the error number twice. -/
def writeEvent (s : St) (r : WRes) : St :=
  let s := { s with wSlot := .idle, wUse := s.wUse - 1 }
  match r with
  | .aborted => tryFree s
  | .err e => callWrite s (-(-e)) 0
  | .ok n => callWrite s SUCCESS n

/-- ERROR_OPERATION_ABORTED. -/
def ABORTED : Int := 995

/-- One step; `none` if the move is not possible.  User code only calls the functions while the port exists. -/
def step (s : St) (m : Move) : Option St :=
  if s.ub then none
  else
    match m with
    | .enter => if s.user = false then some { s with user := true } else none
    | .leave => if s.user = true then some { s with user := false } else none
    | .read space r => if s.user = true ∧ s.alive = true then some (read s space r) else none
    | .write chain mem r atOnce => if s.user = true ∧ s.alive = true then some (write s chain mem r atOnce) else none
    | .close => if s.user = true ∧ s.alive = true then some (close s) else none
    | .received b =>
      match s.rSlot with
      | .pending k => if b ≠ [] ∧ b.length ≤ s.rSpace then some { s with rSlot := .done k (.data b), log := s.log ++ [.received k b] } else none
      | _ => none
    | .timeout =>
      match s.rSlot with
      | .pending k => some { s with rSlot := .done k (.data []), log := s.log ++ [.timeout k] }
      | _ => none
    | .readFailed e =>
      match s.rSlot with
      | .pending k => if 0 < e ∧ e ≠ ABORTED then some { s with rSlot := .done k (.err e), log := s.log ++ [.readFailed k e] } else none
      | _ => none
    | .sent n =>
      match s.wSlot with
      | .pending k =>
        if s.wFreed then some { s with ub := true }
        else if n ≤ s.wLen then some { s with wSlot := .done k (.ok n), log := s.log ++ [.sent k n] } else none
      | _ => none
    | .writeFailed e =>
      match s.wSlot with
      | .pending k => if 0 < e ∧ e ≠ ABORTED then some { s with wSlot := .done k (.err e), log := s.log ++ [.writeFailed k e] } else none
      | _ => none
    | .readEvent =>
      match s.user, s.rSlot with
      | false, .done _ r => some (if s.alive then readEvent s r else { s with ub := true })
      | _, _ => none
    | .writeEvent =>
      match s.user, s.wSlot with
      | false, .done _ r => some (if s.alive then writeEvent s r else { s with ub := true })
      | _, _ => none

/-- `cio_uart_init`, uart.c 513-519. -/
def initial : St :=
  { rSlot := .idle, rSpace := 0, rUse := 0, rHandler := none, wSlot := .idle, wLen := 0, wFreed := false, wUse := 0, wHandler := none,
    alive := true, next := 0, user := false, ub := false, log := [] }

/-- A sequence of moves. -/
def run : St → List Move → Option St
  | s, [] => some s
  | s, m :: ms => (step s m).bind fun s => run s ms

end Cio.Windows.UartIo
