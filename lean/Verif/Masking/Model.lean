/-
Model of /repo/lib/include/cio/websocket_masking.h and of the masking helpers in /repo/lib/src/websocket.c.
Memory is a total map from addresses to bytes; pointers are addresses.
-/
namespace Cio.Masking

/-- Byte-addressed memory. -/
abbrev Mem := Nat → UInt8

/-- A masking key `uint8_t mask[4]`. -/
abbrev Mask := Fin 4 → UInt8

/-- `mask[i % 4]` as it is written in the C code. -/
def Mask.at4 (m : Mask) (i : Nat) : UInt8 := m ⟨i % 4, Nat.mod_lt _ (by decide)⟩

/-- A byte store. -/
def store (mem : Mem) (a : Nat) (v : UInt8) : Mem := fun x => if x = a then v else mem x

/-- A 64 bit load, little-endian (LP64 Linux on a little-endian machine). -/
def load64 (mem : Mem) (a : Nat) : BitVec 64 :=
  (mem (a + 7)).toBitVec ++ (mem (a + 6)).toBitVec ++ (mem (a + 5)).toBitVec ++ (mem (a + 4)).toBitVec ++
  (mem (a + 3)).toBitVec ++ (mem (a + 2)).toBitVec ++ (mem (a + 1)).toBitVec ++ (mem a).toBitVec

/-- A 64 bit store, little-endian. -/
def store64 (mem : Mem) (a : Nat) (w : BitVec 64) : Mem := fun x =>
  if a ≤ x ∧ x < a + 8 then UInt8.ofBitVec (w.extractLsb' (8 * (x - a)) 8) else mem x

/-- `cio_websocket_correct_mask`, websocket_masking.h 40-49. -/
def correctMask (mask : Mask) (consumed : Nat) : Mask := fun i => mask.at4 (i.val + consumed % 4)

/-- The byte loops of `cio_websocket_mask`, websocket_masking.h 56-58, 76-79 and 86-88: bytes `i`, ...,
`i + n - 1` of the buffer. -/
def maskLoop (buffer : Nat) (mask : Mask) : Nat → Nat → Mem → Mem
  | _, 0, mem => mem
  | i, n + 1, mem => maskLoop buffer mask (i + 1) n (store mem (buffer + i) (mem (buffer + i) ^^^ mask.at4 i))

/-- The word loop, websocket_masking.h 81-84. -/
def wordLoop (alignedMask : BitVec 64) : Nat → Nat → Mem → Mem
  | _, 0, mem => mem
  | a, n + 1, mem => wordLoop alignedMask (a + 8) n (store64 mem a (load64 mem a ^^^ alignedMask))

/-- Filling of `aligned_mask` through a byte pointer, websocket_masking.h 70-73: byte `i` in memory
is `mask[(i + pre_length) % 4]`, then the word is read as an integer. -/
def alignedMask (mask : Mask) (pre : Nat) : BitVec 64 := load64 (fun i => mask.at4 (i + pre)) 0

/-- `cio_websocket_mask`, websocket_masking.h 51-90; `sizeof(uint_fast32_t) = 8`. -/
def websocketMask (mem : Mem) (buffer length : Nat) (mask : Mask) : Mem :=
  if length < 8 then maskLoop buffer mask 0 length mem
  else
    let pre := (8 - buffer % 8) % 8
    let main := (length - pre) / 8
    let post := length - pre - main * 8
    let am := alignedMask mask pre
    let mem := maskLoop buffer mask 0 pre mem
    let mem := wordLoop am (buffer + pre) main mem
    maskLoop buffer mask (length - post) post mem

/-- `swap`, websocket.c 82-87.  `none` is an access outside of the four mask bytes. -/
def swap (mask : Mask) (first last : Nat) : Option Mask :=
  if hf : first < 4 then
    if hl : last < 4 then
      let tmp := mask ⟨first, hf⟩
      let m1 : Mask := fun k => if k = ⟨first, hf⟩ then mask ⟨last, hl⟩ else mask k
      some (fun k => if k = ⟨last, hl⟩ then tmp else m1 k)
    else none
  else none

/-- The loop of `rotate`, websocket.c 94-103.  The first argument bounds the number of iterations;
running out of it is `none` (it is proved never to happen). -/
def rotateLoop : Nat → Mask → Nat → Nat → Nat → Option Mask
  | 0, _, _, _, _ => none
  | fuel + 1, mask, first, next, middle =>
    if first = next then some mask
    else do
      let mask ← swap mask first next
      let first := first + 1
      let next := next + 1
      if next ≥ 4 then rotateLoop fuel mask first middle middle
      else if first = middle then rotateLoop fuel mask first next next
      else rotateLoop fuel mask first next middle

/-- `rotate`, websocket.c 89-104. -/
def rotate (mask : Mask) (middle : Nat) : Option Mask := rotateLoop 8 mask 0 middle middle

/-- `mask_write_buffer`, websocket.c 106-115.  The chain is given as the list of (address, length) of its elements
(the chain structure itself is the subject of `Verif.WriteBuffer`). -/
def maskWriteBuffer (mem : Mem) (mask : Mask) : List (Nat × Nat) → Option (Mem × Mask)
  | [] => some (mem, mask)
  | (a, len) :: rest => do
    let mem := websocketMask mem a len mask
    let mask ← rotate mask (len % 4)
    maskWriteBuffer mem mask rest

/-- Sum of the element lengths (`cio_write_buffer_get_total_size`). -/
def totalSize (chain : List (Nat × Nat)) : Nat := (chain.map Prod.snd).sum

/-- The masking part of a client's `send_frame` for the first chunk of a frame, websocket.c 144-157:
`mask` is the fresh random mask, `saved` the field `chunk_send_mask`. -/
def sendFirstMask (mem : Mem) (mask saved : Mask) (frameLength : Nat) (chain : List (Nat × Nat)) :
    Option (Mem × Mask) := do
  let (mem, mask) ← maskWriteBuffer mem mask chain
  if totalSize chain < frameLength then return (mem, mask) else return (mem, saved)

/-- The masking part of a client's `send_frame` for a continuation chunk, websocket.c 167-171. -/
def sendContinuationMask (mem : Mem) (saved : Mask) (chain : List (Nat × Nat)) : Option (Mem × Mask) := do
  let (mem, mask) ← maskWriteBuffer mem saved chain
  return (mem, correctMask mask (totalSize chain))

/-- All chunks of one frame, in order: `cio_websocket_write_message_first_chunk` followed by
`cio_websocket_write_message_continuation_chunk`s. -/
def sendContinuations (mem : Mem) (saved : Mask) : List (List (Nat × Nat)) → Option (Mem × Mask)
  | [] => some (mem, saved)
  | c :: cs => do
    let (mem, saved) ← sendContinuationMask mem saved c
    sendContinuations mem saved cs

def sendChunks (mem : Mem) (mask saved : Mask) (frameLength : Nat) (first : List (Nat × Nat))
    (rest : List (List (Nat × Nat))) : Option Mem := do
  let (mem, saved) ← sendFirstMask mem mask saved frameLength first
  let (mem, _) ← sendContinuations mem saved rest
  return mem

end Cio.Masking
