import Verif.Common
import Verif.Memmem.Model
/-
Model of /repo/lib/include/cio/read_buffer.h and of the read half of /repo/lib/src/buffered_stream.c.

The C code is driven from outside by the transport (completion of `read_some`) and by the user, who may also act within read handlers.
The model is a machine whose steps are: a user call from outside, a completed transport read, and one iteration of the loop in `run_read`.
The read handler is an arbitrary function from the whole state (including its history) to the list of calls it makes.

Simplifications: one read buffer is used for all reads of a stream; `read_some` completes asynchronously (if it called back synchronously,
the same steps would happen in the same order, because `run_read` returns after `fill_buffer`); pointers into the buffer are offsets.
-/
namespace Cio.BufferedRead

/-- `struct cio_read_buffer`, read_buffer.h 50-58: `mem` is the memory from `data` to `end`. -/
structure ReadBuffer where
  mem : List UInt8
  add : Nat
  fetch : Nat
deriving DecidableEq

/-- `cio_read_buffer_unread_bytes`, read_buffer.h 65-68. -/
def ReadBuffer.unreadBytes (rb : ReadBuffer) : Nat := rb.add - rb.fetch
/-- `cio_read_buffer_space_available`, read_buffer.h 75-78. -/
def ReadBuffer.spaceAvailable (rb : ReadBuffer) : Nat := rb.mem.length - rb.add
/-- `cio_read_buffer_size`, read_buffer.h 117-120. -/
def ReadBuffer.size (rb : ReadBuffer) : Nat := rb.mem.length
/-- `cio_read_buffer_init`, read_buffer.h 87-99; the result code and the initialised buffer. -/
def ReadBuffer.init (data : Option (List UInt8)) : Err × Option ReadBuffer :=
  match data with
  | none => (INVALID_ARGUMENT, none)
  | some mem => if mem.length = 0 then (INVALID_ARGUMENT, none) else (SUCCESS, some ⟨mem, 0, 0⟩)
/-- `cio_read_buffer_consume`, read_buffer.h 129-132. -/
def ReadBuffer.consume (rb : ReadBuffer) (num : Nat) : ReadBuffer := { rb with fetch := rb.fetch + num }

/-- The unread bytes themselves: what is found at `cio_read_buffer_get_read_ptr`, read_buffer.h 107-110. -/
def ReadBuffer.unread (rb : ReadBuffer) : List UInt8 := (rb.mem.drop rb.fetch).take (rb.add - rb.fetch)

/-- The compaction in `fill_buffer`, buffered_stream.c 80-83. -/
def ReadBuffer.compact (rb : ReadBuffer) : ReadBuffer :=
  { mem := rb.unread ++ rb.mem.drop rb.unreadBytes, fetch := 0, add := rb.unreadBytes }

/-- What the transport does with the buffer: copy `bs` to `add_ptr` and advance it (e.g. linux/socket.c 84-89). -/
def ReadBuffer.append (rb : ReadBuffer) (bs : List UInt8) : ReadBuffer :=
  { rb with mem := rb.mem.take rb.add ++ bs ++ rb.mem.drop (rb.add + bs.length), add := rb.add + bs.length }

/-- `read_job` together with `read_info`. -/
inductive Job where
  | atLeast (n : Nat)
  | until (delim : List UInt8)
  | atMost (n : Nat)
deriving DecidableEq

/-- What a user may do. -/
inductive UAct where
  | consume (n : Nat)
  | read (j : Job)
  | close
deriving DecidableEq

/-- One invocation of the read handler, with what the world looked like then: the unread bytes, all bytes consumed and received before, and the
offset of the read pointer in the buffer. -/
structure Call where
  job : Job
  err : Err
  num : Nat
  view : List UInt8
  consumed : List UInt8
  received : List UInt8
  offset : Nat

/-- `struct cio_buffered_stream` (read half) and, for the statements only, the history. `looping` says that `run_read` is executing. -/
structure World where
  rb : ReadBuffer
  job : Option Job := none
  lastError : Err := SUCCESS
  callbackIsRunning : Nat := 0
  shallClose : Bool := false
  looping : Bool := false
  waiting : Bool := false
  closed : Bool := false
  -- history
  received : List UInt8 := []
  consumed : List UInt8 := []
  calls : List Call := []
  transportErrs : List Err := []
  accepted : Nat := 0
  overwritten : Nat := 0
  refused : Nat := 0
  misuse : Bool := false
  ub : Bool := false

/-- The read handler: any reaction to anything. -/
abbrev Handler := World → List UAct

/-- `cio_buffered_stream_read_at_least` / `_read_until` / `_read_at_most`, buffered_stream.c 281-335, including `start_read` 107-112.  Null
pointers are not modelled here. -/
def read (w : World) (j : Job) : World :=
  match j with
  | .atLeast n =>
    if n > w.rb.size then { w with refused := w.refused + 1 }
    else go w j
  | _ => go w j
where
  go (w : World) (j : Job) : World :=
    { w with job := some j, lastError := SUCCESS, looping := w.looping || (w.callbackIsRunning == 0), accepted := w.accepted + 1,
             overwritten := if w.job.isSome then w.overwritten + 1 else w.overwritten }

/-- `cio_buffered_stream_close`, buffered_stream.c 337-350. -/
def close (w : World) : World :=
  if w.callbackIsRunning = 0 then { w with closed := true } else { w with shallClose := true }

/-- A user action; consuming more than there is breaks the rules of use. -/
def act (w : World) : UAct → World
  | .consume n =>
    { w with rb := w.rb.consume n, consumed := w.consumed ++ w.rb.unread.take n, misuse := w.misuse || decide (w.rb.unreadBytes < n) }
  | .read j => read w j
  | .close => close w

/-- `enum cio_bs_state`. -/
inductive BsState where
  | open | again | closed
deriving DecidableEq

/-- `call_handler`, buffered_stream.c 55-68. -/
def callHandler (H : Handler) (w : World) (j : Job) (err : Err) (num : Nat) : World × BsState :=
  let w := { w with job := none, callbackIsRunning := w.callbackIsRunning + 1,
                    calls := w.calls ++ [⟨j, err, num, w.rb.unread, w.consumed, w.received, w.rb.fetch⟩] }
  let w := (H w).foldl act w
  let w := { w with callbackIsRunning := w.callbackIsRunning - 1 }
  if w.shallClose then ({ w with closed := true }, .closed) else (w, .open)

/-- `internal_read_max` 114-129, `internal_read_until` 131-149, `internal_read_at_least` 151-165 of buffered_stream.c. -/
def runJob (H : Handler) (w : World) (j : Job) : World × BsState :=
  if w.lastError ≠ SUCCESS then callHandler H w j w.lastError 0
  else
    match j with
    | .atMost n =>
      let available := w.rb.unreadBytes
      if available > 0 then callHandler H w j SUCCESS (if available < n then available else n) else (w, .again)
    | .until delim =>
      match Memmem.memmem w.rb.unread delim with
      | none => ({ w with ub := true }, .closed)
      | some none => (w, .again)
      | some (some found) => callHandler H w j SUCCESS (found + delim.length)
    | .atLeast n =>
      let available := w.rb.unreadBytes
      if n ≤ available then callHandler H w j SUCCESS n else (w, .again)

/-- `stream->read_some(...)` at the end of `fill_buffer`, buffered_stream.c 86-89; `rs` is what the transport returns. -/
def readSome (H : Handler) (w : World) (j : Job) (rs : Err) : World :=
  if rs ≠ SUCCESS then (callHandler H { w with transportErrs := w.transportErrs ++ [rs] } j rs 0).1
  else { w with waiting := true }

/-- `fill_buffer`, buffered_stream.c 70-90. -/
def fillBuffer (H : Handler) (w : World) (j : Job) (rs : Err) : World :=
  if w.rb.spaceAvailable = 0 then
    if w.rb.fetch = 0 then (runJob H { w with lastError := MESSAGE_TOO_LONG } j).1
    else readSome H { w with rb := w.rb.compact } j rs
  else readSome H w j rs

/-- One iteration of the loop in `run_read`, buffered_stream.c 92-105. -/
def loopIter (H : Handler) (w : World) (rs : Err) : World :=
  match w.job with
  | none => { w with looping := false }
  | some j =>
    match runJob H w j with
    | (w, .again) => { fillBuffer H w j rs with looping := false }
    | (w, .closed) => { w with looping := false }
    | (w, .open) => w

/-- What can happen next. -/
inductive Ev where
  | user (a : UAct)
  | loop (rs : Err)
  | deliver (bs : List UInt8)
  | fail (err : Err)

/-- One step of the machine.  Guards: the loop runs to its end before anything else happens (the library is single-threaded); the transport
completes an outstanding read with at most as many bytes as there is space (the contract of `read_some`), or with an error; a user who
reads while a read is outstanding breaks the rules of use. -/
def step (H : Handler) (w : World) : Ev → Option World
  | .user a =>
    if w.looping || w.closed then none
    else
      match a with
      | .read _ => some { act w a with misuse := w.misuse || w.waiting }
      | _ => some (act w a)
  | .loop rs => if w.looping then some (loopIter H w rs) else none
  | .deliver bs =>
    if w.waiting && !w.looping && !w.closed && decide (bs.length ≤ w.rb.spaceAvailable) then
      some { w with rb := w.rb.append bs, received := w.received ++ bs, waiting := false, lastError := SUCCESS, looping := true }
    else none
  | .fail err =>
    if w.waiting && !w.looping && !w.closed && decide (err ≠ SUCCESS) then
      some { w with waiting := false, lastError := err, transportErrs := w.transportErrs ++ [err], looping := true }
    else none

def run (H : Handler) : World → List Ev → Option World
  | w, [] => some w
  | w, e :: es => do
    let w ← step H w e
    run H w es

/-- After `cio_buffered_stream_init` (buffered_stream.c 267-279) and `cio_read_buffer_init`. -/
def init (mem : List UInt8) : World := { rb := ⟨mem, 0, 0⟩ }

end Cio.BufferedRead
