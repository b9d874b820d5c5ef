import Verif.Common
/-
Model of the write half of /repo/lib/src/buffered_stream.c (lines 167-265 and 352-362).

A write buffer is represented by the sequence of its elements; that the linked structure behaves like a sequence under the operations used here
(queue_head, queue_tail, dequeue, split_and_append, with the position "the head itself" of split_and_append meaning everything) is the
theorem `Cio.WB.exec_refines`; the same code on the linked structure is modelled in `HeapModel.lean` and shown to do the same in `HeapProps.lean`.  The transport answers each `write_some` either with a number of transferred bytes, or with an error given to the
callback, or with an error returned from `write_some` itself.
-/
namespace Cio.BufferedWrite

/-- An element of a write buffer: its address and the bytes it points to. -/
structure Elem where
  addr : Nat
  data : List UInt8
deriving DecidableEq

/-- All bytes of a write buffer, in order: what a `write_some` is asked to write. -/
def flat (b : List Elem) : List UInt8 := b.flatMap (·.data)

/-- The address of `buffered_stream->write_buffer`, the element for the rest of a partially written element. -/
def temp : Nat := 0

/-- `buffer_partially_written`, buffered_stream.c 167-170. -/
def partiallyWritten (e : Elem) (n : Nat) : Bool := decide (e.data.length > n)

/-- `buffer_is_temp_buffer`, buffered_stream.c 172-175. -/
def isTemp (e : Elem) : Bool := e.addr == temp

/-- Which callback is registered at the transport. -/
inductive Phase where
  | first | more | idle
deriving DecidableEq

structure World where
  phase : Phase := .idle
  /-- the write buffer the user passed to `cio_buffered_stream_write` (`original_wbh`) -/
  chain : List Elem
  /-- `buffered_stream->wbh` -/
  wbh : List Elem := []
  /-- what has been put on the wire -/
  wire : List UInt8 := []
  /-- the calls of the write handler: the error, and what the user's write buffer contains at that time -/
  calls : List (Err × List Elem) := []
  /-- `cio_buffered_stream_write` returned this error -/
  returned : Option Err := none

/-- What `write_some` does. -/
inductive Resp where
  | ok (n : Nat)
  | err (e : Err)
  | sync (e : Err)

/-- `buffered_stream->write_handler(...)`. -/
def callHandler (w : World) (e : Err) : World := { w with phase := .idle, calls := w.calls ++ [(e, w.chain)] }

/-- The loop in the error branch of `handle_write`, buffered_stream.c 183-189. -/
def giveBack (chain : List Elem) : List Elem → List Elem
  | [] => chain
  | e :: rest => giveBack (if isTemp e then chain else chain ++ [e]) rest

/-- The loop in `handle_write`, buffered_stream.c 195-215: the new user chain and the new `wbh`. -/
def advance (chain : List Elem) (n : Nat) : List Elem → List Elem × List Elem
  | [] => (chain, [])
  | e :: rest =>
    let chain' := if isTemp e then chain else chain ++ [e]
    if partiallyWritten e n then (chain', ⟨temp, e.data.drop n⟩ :: rest)
    else advance chain' (n - e.data.length) rest

/-- `handle_write` after a successful transfer, buffered_stream.c 195-224; the answer of the next `write_some` is the next event.  -/
def handleWrite (w : World) (n : Nat) : World :=
  let (chain, wbh) := advance w.chain n w.wbh
  let w := { w with chain := chain, wbh := wbh }
  if wbh = [] then callHandler w SUCCESS else { w with phase := .more }

/-- The search in `handle_partial_writes`, buffered_stream.c 232-236: the elements before the partially written one, this one with the number of
its bytes that were written, and those behind it.  `none`: the search runs past the end of the chain. -/
def findPartial (n : Nat) : List Elem → Option (List Elem × Elem × Nat × List Elem)
  | [] => none
  | e :: rest =>
    if partiallyWritten e n then some ([], e, n, rest)
    else (findPartial (n - e.data.length) rest).map fun (pre, x, m, post) => (e :: pre, x, m, post)

/-- `handle_partial_writes`, buffered_stream.c 227-249.  `buffer->next` of the last element is the head, and splitting at the head means
splitting at the first element. -/
def handlePartialWrites (w : World) (n : Nat) : Option World := do
  let (pre, e, m, post) ← findPartial n w.chain
  let tmp : Elem := ⟨temp, e.data.drop m⟩
  match post with
  | [] => some { w with phase := .more, wbh := tmp :: w.chain, chain := [] }
  | _ => some { w with phase := .more, wbh := tmp :: post, chain := pre ++ [e] }

/-- `handle_first_write`, buffered_stream.c 251-265, after a successful transfer. -/
def handleFirstWrite (w : World) (n : Nat) : Option World :=
  if n = (flat w.chain).length then some (callHandler w SUCCESS) else handlePartialWrites w n

/-- The transport answers the outstanding `write_some`.  It never claims to have written more than it was asked to. -/
def respond (w : World) : Resp → Option World
  | .ok n =>
    match w.phase with
    | .first => if n ≤ (flat w.chain).length then handleFirstWrite { w with wire := w.wire ++ (flat w.chain).take n } n else none
    | .more => if n ≤ (flat w.wbh).length then some (handleWrite { w with wire := w.wire ++ (flat w.wbh).take n } n) else none
    | .idle => none
  | .err e =>
    match w.phase with
    | .first => some (callHandler w e)
    | .more => some (callHandler { w with chain := giveBack w.chain w.wbh, wbh := [] } e)
    | .idle => none
  | .sync e =>
    match w.phase with
    | .first => some { w with phase := .idle, returned := some e }
    | .more => some (callHandler w e)
    | .idle => none

/-- `cio_buffered_stream_write`, buffered_stream.c 352-362. -/
def write (chain : List Elem) : World := { phase := .first, chain := chain }

def run : World → List Resp → Option World
  | w, [] => some w
  | w, r :: rs => do
    let w ← respond w r
    run w rs

end Cio.BufferedWrite
