import Verif.BufferedWrite.Model
import Verif.Masking.Spec
import Verif.WriteBuffer.Model
/-
The write half of /repo/lib/src/buffered_stream.c (lines 167-265 and 352-362) on the linked structure in memory: every access to a write buffer is one of the
operations of `Cio.WB` (write_buffer.h).  `Verif/BufferedWrite/HeapProps.lean` shows that it does what the model on sequences (`Model.lean`) does.

Undefined behaviour and endless loops are `none`.  Loops have `fuel` iterations at most.
-/
namespace Cio.BufferedWrite.OnHeap
open WB (Heap Addr getNext getW0 getW1 queueDequeue queueTail queueHead queueEmpty elementInit headInit splitAndAppend)
open Masking (Mem bytesAt)

/-- The nodes involved: `&buffered_stream->write_buffer`, `&buffered_stream->wbh` and the write buffer of the user. -/
structure Nodes where
  temp : Addr
  wbh : Addr
  user : Addr

structure World where
  phase : Phase := .idle
  heap : Heap
  /-- what has been put on the wire -/
  wire : List UInt8 := []
  /-- the calls of the write handler: the error, and the memory at that time -/
  calls : List (Err × Heap) := []
  returned : Option Err := none

/-- `buffered_stream->write_handler(...)`. -/
def callHandler (w : World) (e : Err) : World := { w with phase := .idle, calls := w.calls ++ [(e, w.heap)] }

/-- The transport walks over `k` elements from `a` on and collects their bytes, socket.c 209-214. -/
def gather (mem : Mem) (h : Heap) : Nat → Addr → Option (List UInt8)
  | 0, _ => some []
  | k + 1, a => do
    let d ← getW0 h a
    let l ← getW1 h a
    let n ← getNext h a
    let rest ← gather mem h k n
    return bytesAt mem d l ++ rest

/-- What `write_some` is asked to write: as many elements as the head says, socket.c 198-214. -/
def request (mem : Mem) (h : Heap) (head : Addr) : Option (List UInt8) := do
  let q ← getW0 h head
  let n ← getNext h head
  gather mem h q n

/-- `if (!buffer_is_temp_buffer(...)) cio_write_buffer_queue_tail(original_wbh, ...)`, buffered_stream.c 172-175, 185-187, 198-200, 210-212. -/
def backToUser (c : Nodes) (h : Heap) (e : Addr) : Option Heap := if c.temp = e then some h else queueTail h c.user e

/-- The loop in the error branch of `handle_write`, buffered_stream.c 183-189. -/
def giveBack (c : Nodes) : Nat → Heap → Option Heap
  | 0, _ => none
  | fuel + 1, h => do
    match ← queueDequeue h c.wbh with
    | (none, h) => return h
    | (some e, h) =>
      let h ← backToUser c h e
      giveBack c fuel h

/-- The loop in `handle_write`, buffered_stream.c 195-215. -/
def advance (c : Nodes) : Nat → Heap → Nat → Option Heap
  | 0, _, _ => none
  | fuel + 1, h, n => do
    match ← queueDequeue h c.wbh with
    | (none, h) => return h
    | (some e, h) =>
      let len ← getW1 h e
      if len > n then
        let h ← backToUser c h e
        let data ← getW0 h e
        let len ← getW1 h e
        let h ← elementInit h c.temp (data + n) (len - n)
        queueHead h c.wbh c.temp
      else
        let n := n - len
        let h ← backToUser c h e
        advance c fuel h n

/-- `handle_write` after a successful transfer, buffered_stream.c 195-224; the answer of the next `write_some` is the next event.  -/
def handleWrite (c : Nodes) (fuel : Nat) (w : World) (n : Nat) : Option World := do
  let h ← advance c fuel w.heap n
  let w := { w with heap := h }
  if ← queueEmpty h c.wbh then return callHandler w SUCCESS else return { w with phase := .more }

/-- The search in `handle_partial_writes`, buffered_stream.c 232-236: the partially written element and the number of its bytes that were written. -/
def findPartial (h : Heap) : Nat → Addr → Nat → Option (Addr × Nat)
  | 0, _, _ => none
  | fuel + 1, b, n => do
    let len ← getW1 h b
    if len > n then return (b, n)
    else
      let nx ← getNext h b
      findPartial h fuel nx (n - len)

/-- `handle_partial_writes`, buffered_stream.c 227-249. -/
def handlePartialWrites (c : Nodes) (fuel : Nat) (w : World) (n : Nat) : Option World := do
  let h ← headInit w.heap c.wbh
  let b ← getNext h c.user
  let (b, n) ← findPartial h fuel b n
  let data ← getW0 h b
  let len ← getW1 h b
  let h ← elementInit h c.temp (data + n) (len - n)
  let h ← queueHead h c.wbh c.temp
  let nx ← getNext h b
  let h ← splitAndAppend fuel h c.wbh c.user nx
  return { w with phase := .more, heap := h }

/-- `handle_first_write`, buffered_stream.c 251-265, after a successful transfer. -/
def handleFirstWrite (c : Nodes) (fuel : Nat) (w : World) (n : Nat) : Option World := do
  let total ← getW1 w.heap c.user
  if n = total then return callHandler w SUCCESS else handlePartialWrites c fuel w n

/-- The transport answers the outstanding `write_some`.  It never claims to have written more than it was asked to (the answer is then not possible: `none`
outside, undefined behaviour is `none` inside). -/
def respond (c : Nodes) (mem : Mem) (fuel : Nat) (w : World) : Resp → Option (Option World)
  | .ok n =>
    match w.phase with
    | .first =>
      match request mem w.heap c.user with
      | none => some none
      | some bytes => if n ≤ bytes.length then some (handleFirstWrite c fuel { w with wire := w.wire ++ bytes.take n } n) else none
    | .more =>
      match request mem w.heap c.wbh with
      | none => some none
      | some bytes => if n ≤ bytes.length then some (handleWrite c fuel { w with wire := w.wire ++ bytes.take n } n) else none
    | .idle => none
  | .err e =>
    match w.phase with
    | .first => some (some (callHandler w e))
    | .more => some ((giveBack c fuel w.heap).map fun h => callHandler { w with heap := h } e)
    | .idle => none
  | .sync e =>
    match w.phase with
    | .first => some (some { w with phase := .idle, returned := some e })
    | .more => some (some (callHandler w e))
    | .idle => none

/-- `cio_buffered_stream_write`, buffered_stream.c 352-362. -/
def write (h : Heap) : World := { phase := .first, heap := h }

def run (c : Nodes) (mem : Mem) (fuel : Nat) : World → List Resp → Option (Option World)
  | w, [] => some (some w)
  | w, r :: rs =>
    match respond c mem fuel w r with
    | none => none
    | some none => some none
    | some (some w) => run c mem fuel w rs

end Cio.BufferedWrite.OnHeap
