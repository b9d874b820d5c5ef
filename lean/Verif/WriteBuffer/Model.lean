/-
Model of /repo/lib/include/cio/write_buffer.h: write buffers as `struct cio_write_buffer` nodes in memory, linked in rings.
-/
namespace Cio.WB

/-- Address of a `struct cio_write_buffer`. -/
abbrev Addr := Nat

/-- `SIZE_MAX + 1`. -/
def szMod : Nat := 2 ^ 64

/-- `a + b` and `a - b` in `size_t`. -/
def szAdd (a b : Nat) : Nat := (a + b) % szMod
def szSub (a b : Nat) : Nat := (a + (szMod - b % szMod)) % szMod

/-- The nodes in memory, write_buffer.h 59-79.  The union `data` consists of two machine words: `w0` is `element.data` or `head.q_len`, `w1` is
`element.length` or `head.total_length`.  Accesses to nodes that are not `valid` are undefined behaviour. -/
structure Heap where
  valid : Addr → Bool
  next : Addr → Addr
  prev : Addr → Addr
  w0 : Addr → Nat
  w1 : Addr → Nat

def upd (f : Addr → Nat) (a v : Nat) : Addr → Nat := fun x => if x = a then v else f x

/-- `a->next = v` and the like; `none` is undefined behaviour. -/
def setNext (h : Heap) (a v : Addr) : Option Heap := if h.valid a then some { h with next := upd h.next a v } else none
def setPrev (h : Heap) (a v : Addr) : Option Heap := if h.valid a then some { h with prev := upd h.prev a v } else none
def setW0 (h : Heap) (a v : Nat) : Option Heap := if h.valid a then some { h with w0 := upd h.w0 a v } else none
def setW1 (h : Heap) (a v : Nat) : Option Heap := if h.valid a then some { h with w1 := upd h.w1 a v } else none

def getNext (h : Heap) (a : Addr) : Option Addr := if h.valid a then some (h.next a) else none
def getPrev (h : Heap) (a : Addr) : Option Addr := if h.valid a then some (h.prev a) else none
def getW0 (h : Heap) (a : Addr) : Option Nat := if h.valid a then some (h.w0 a) else none
def getW1 (h : Heap) (a : Addr) : Option Nat := if h.valid a then some (h.w1 a) else none

/-- `cio_write_buffer_insert`, write_buffer.h 88-98. -/
def insert (h : Heap) (wbh new prv nxt : Addr) : Option Heap := do
  let h ← setNext h new nxt
  let h ← setPrev h new prv
  let h ← setNext h prv new
  let h ← setPrev h nxt new
  let q ← getW0 h wbh
  let h ← setW0 h wbh (szAdd q 1)
  let t ← getW1 h wbh
  let l ← getW1 h new
  setW1 h wbh (szAdd t l)

/-- `cio_write_buffer_queue_before`, write_buffer.h 105-110. -/
def queueBefore (h : Heap) (wbh nxt new : Addr) : Option Heap := do
  let p ← getPrev h nxt
  insert h wbh new p nxt

/-- `cio_write_buffer_queue_after`, write_buffer.h 118-123. -/
def queueAfter (h : Heap) (wbh prv new : Addr) : Option Heap := do
  let n ← getNext h prv
  insert h wbh new prv n

/-- `cio_write_buffer_queue_head`, write_buffer.h 130-134. -/
def queueHead (h : Heap) (wbh new : Addr) : Option Heap := queueAfter h wbh wbh new

/-- `cio_write_buffer_queue_tail`, write_buffer.h 141-145. -/
def queueTail (h : Heap) (wbh new : Addr) : Option Heap := queueBefore h wbh wbh new

/-- `cio_write_buffer_queue_empty`, write_buffer.h 152-155. -/
def queueEmpty (h : Heap) (wbh : Addr) : Option Bool := do
  let n ← getNext h wbh
  return n == wbh

/-- `cio_write_buffer_is_last_element`, write_buffer.h 163-166. -/
def isLastElement (h : Heap) (wbh wbe : Addr) : Option Bool := do
  let p ← getPrev h wbe
  return p == wbh

/-- `cio_write_buffer_queue_peek`, write_buffer.h 173-182; `none` inside is `NULL`. -/
def queuePeek (h : Heap) (wbh : Addr) : Option (Option Addr) := do
  let wbe ← getNext h wbh
  if wbe = wbh then return none else return some wbe

/-- `cio_write_buffer_queue_last`, write_buffer.h 189-198. -/
def queueLast (h : Heap) (wbh : Addr) : Option (Option Addr) := do
  let wbe ← getPrev h wbh
  if wbe = wbh then return none else return some wbe

/-- `cio_write_buffer_unlink`, write_buffer.h 205-216. -/
def unlink (h : Heap) (wbh wbe : Addr) : Option Heap := do
  let q ← getW0 h wbh
  let h ← setW0 h wbh (szSub q 1)
  let t ← getW1 h wbh
  let l ← getW1 h wbe
  let h ← setW1 h wbh (szSub t l)
  let nxt ← getNext h wbe
  let prv ← getPrev h wbe
  let h ← setPrev h nxt prv
  setNext h prv nxt

/-- `cio_write_buffer_queue_dequeue`, write_buffer.h 223-231. -/
def queueDequeue (h : Heap) (wbh : Addr) : Option (Option Addr × Heap) := do
  match ← queuePeek h wbh with
  | none => return (none, h)
  | some wbe =>
    let h ← unlink h wbh wbe
    return (some wbe, h)

/-- `cio_write_buffer_head_init`, write_buffer.h 237-243. -/
def headInit (h : Heap) (wbh : Addr) : Option Heap := do
  let h ← setPrev h wbh wbh
  let h ← setNext h wbh wbh
  let h ← setW0 h wbh 0
  setW1 h wbh 0

/-- `cio_write_buffer_const_element_init` and `cio_write_buffer_element_init`, write_buffer.h 251-267. -/
def elementInit (h : Heap) (wbe data length : Nat) : Option Heap := do
  let h ← setW0 h wbe data
  setW1 h wbe length

/-- `cio_write_buffer_splice`, write_buffer.h 274-292. -/
def splice (h : Heap) (list head : Addr) : Option Heap := do
  if ← queueEmpty h list then return h
  else
    let newLast ← getPrev h list
    let newFirst ← getNext h list
    let last ← getPrev h head
    let h ← setNext h last newFirst
    let h ← setPrev h newFirst last
    let h ← setNext h newLast head
    let h ← setPrev h head newLast
    let a ← getW0 h head
    let b ← getW0 h list
    let h ← setW0 h head (szAdd a b)
    let a ← getW1 h head
    let b ← getW1 h list
    let h ← setW1 h head (szAdd a b)
    headInit h list

/-- `cio_write_buffer_get_total_size`, write_buffer.h 298-301. -/
def getTotalSize (h : Heap) (head : Addr) : Option Nat := getW1 h head

/-- `cio_write_buffer_get_num_buffer_elements`, write_buffer.h 308-311. -/
def getNumBufferElements (h : Heap) (head : Addr) : Option Nat := getW0 h head

/-- The counting loop of `cio_write_buffer_split_and_append`, write_buffer.h 329-333.  `fuel` bounds the number of iterations; running out
of it (`none`) stands for an endless loop. -/
def tailCount (h : Heap) (fromHead : Addr) : Nat → Addr → Nat → Nat → Option (Nat × Nat)
  | 0, _, _, _ => none
  | fuel + 1, element, len, q =>
    if element ≠ fromHead then do
      let l ← getW1 h element
      let n ← getNext h element
      tailCount h fromHead fuel n (szAdd len l) (szAdd q 1)
    else some (len, q)

/-- `cio_write_buffer_split_and_append`, write_buffer.h 313-347. -/
def splitAndAppend (fuel : Nat) (h : Heap) (toHead fromHead wbe : Addr) : Option Heap := do
  if ← queueEmpty h fromHead then return h
  else
    let first ← getNext h fromHead
    let wbe := if fromHead = wbe then first else wbe
    let toLast ← getPrev h toHead
    let fromLast ← getPrev h fromHead
    let (tailLength, tailQlen) ← tailCount h fromHead fuel wbe 0 0
    let wbePrev ← getPrev h wbe
    let h ← setNext h wbePrev fromHead
    let h ← setPrev h fromHead wbePrev
    let q ← getW0 h fromHead
    let h ← setW0 h fromHead (szSub q tailQlen)
    let t ← getW1 h fromHead
    let h ← setW1 h fromHead (szSub t tailLength)
    let h ← setNext h fromLast toHead
    let h ← setPrev h toHead fromLast
    let h ← setNext h toLast wbe
    let h ← setPrev h wbe toLast
    let q ← getW0 h toHead
    let h ← setW0 h toHead (szAdd q tailQlen)
    let t ← getW1 h toHead
    setW1 h toHead (szAdd t tailLength)

end Cio.WB
