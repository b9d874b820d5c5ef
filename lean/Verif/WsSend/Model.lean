import Verif.Masking.Model
import Verif.Endian.Model
import Verif.Random.Model
/-
Model of the frame construction in /repo/lib/src/websocket.c: `send_frame` 117-175 for the first chunk of a frame.
-/
namespace Cio.WsSend
open Masking (Mem Mask)

/-- `enum cio_websocket_frame_type`, websocket.h. -/
inductive FrameType where
  | continuation | text | binary | close | ping | pong
deriving DecidableEq, Repr

def FrameType.toNat : FrameType → Nat
  | .continuation => 0
  | .text => 1
  | .binary => 2
  | .close => 8
  | .ping => 9
  | .pong => 10

/-- `memcpy(&send_header[i], bytes, ...)`; `none` if it does not fit into the 14 bytes. -/
def writeAt (hdr : List UInt8) (i : Nat) (bs : List UInt8) : Option (List UInt8) :=
  if i + bs.length ≤ hdr.length then some (hdr.take i ++ bs ++ hdr.drop (i + bs.length)) else none

/-- The mask bytes as the array the masking code works on. -/
def toMask (bs : List UInt8) : Mask := fun i => bs.getD i.val 0

/-- What a call of `send_frame` leaves behind and hands to the buffered stream. -/
structure Sent where
  header : List UInt8
  mem : Mem
  saved : Mask
  rng : Random.Rng

/-- `send_frame`, websocket.c 117-165, for a job that is not a continuation chunk.  `hdr` is what `send_header` contained before, `saved` is
`chunk_send_mask`, `chain` the payload (address and length of each element), `o` the byte order of the host. -/
def sendFrame (o : Endian.Order) (isServer : Bool) (type : FrameType) (lastFrame : Bool) (frameLength : Nat) (hdr : List UInt8)
    (mem : Mem) (saved : Mask) (rng : Random.Rng) (chain : List (Nat × Nat)) : Option Sent := do
  let firstByte : UInt8 := UInt8.ofNat type.toNat
  let firstByte := if lastFrame then firstByte ||| 0x80 else firstByte
  let hdr ← writeAt hdr 0 [firstByte]
  let (hdr, headerIndex, firstLen) ←
    if frameLength ≤ 125 then pure (hdr, 2, UInt8.ofNat frameLength)
    else if frameLength ≤ 65535 then do
      let beLen := Endian.htobe o 2 (frameLength % 2 ^ 16)
      let hdr ← writeAt hdr 2 (Endian.toMem o 2 beLen)
      pure (hdr, 4, (126 : UInt8))
    else do
      let beLen := Endian.htobe o 8 (frameLength % 2 ^ 64)
      let hdr ← writeAt hdr 2 (Endian.toMem o 8 beLen)
      pure (hdr, 10, (127 : UInt8))
  if isServer then
    let hdr ← writeAt hdr 1 [firstLen]
    return ⟨hdr.take headerIndex, mem, saved, rng⟩
  else
    let firstLen := firstLen ||| 0x80
    let (mask, rng) := Random.getBytes 4 rng
    let hdr ← writeAt hdr headerIndex mask
    let headerIndex := headerIndex + 4
    let (mem, saved) ← Masking.sendFirstMask mem (toMask mask) saved frameLength chain
    let hdr ← writeAt hdr 1 [firstLen]
    return ⟨hdr.take headerIndex, mem, saved, rng⟩

end Cio.WsSend
