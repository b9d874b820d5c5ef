import Verif.WsSend.Props
import Verif.WsRecv.Frames
/-
C45: what one side sends is what the other side's application gets.  The sender is `send_frame` (models `WsSend`, `Masking`), called once for each frame and once for each further chunk of it; the
receiver is the reading half of the other WebSocket (model `WsRecv`); in between the bytes travel in pieces.
-/
namespace Cio.WsRoundTrip
open WsSend WsRecv
open Masking (Mem Mask Separate chainBytes)

/-- One frame: the call of `cio_websocket_write_message_first_chunk` (or of `..._write_ping`, `..._write_pong`) with the content of memory then, and
the calls of `cio_websocket_write_message_continuation_chunk` for the rest of the frame, each with the content of memory then. -/
structure Out1 where
  type : FrameType
  fin : Bool
  hdr : List UInt8
  mem : Mem
  saved : Mask
  chain : List (Nat × Nat)
  more : List (Mem × List (Nat × Nat)) := []

/-- The payload passed: the content of the chains. -/
def Out1.payload (c : Out1) : List UInt8 := chainBytes c.mem c.chain ++ c.more.flatMap fun m => chainBytes m.1 m.2

/-- The header buffer has its 14 bytes, the elements of a chain do not overlap, the length fits into 64 bits.  A client's further chunks have, but for
the last one, a length divisible by 4 (see `Masking.chunks_not_masked_as_whole` for what happens otherwise). -/
structure Out1.Ok (fromServer : Bool) (c : Out1) : Prop where
  hdr : c.hdr.length = 14
  first : Separate c.chain
  more : ∀ m ∈ c.more, Separate m.2
  length : c.payload.length < 2 ^ 64
  four : fromServer = false → ∀ m ∈ c.more.dropLast, (chainBytes m.1 m.2).length % 4 = 0

/-- The bytes of further chunks, websocket.c 167-175; `saved` is `chunk_send_mask`. -/
def wireMore (fromServer : Bool) : Mask → List (Mem × List (Nat × Nat)) → Option (List UInt8)
  | _, [] => some []
  | saved, (mem, chain) :: ms =>
    if fromServer then do
      let rest ← wireMore fromServer saved ms
      return chainBytes mem chain ++ rest
    else do
      let (mem, saved) ← Masking.sendContinuationMask mem saved chain
      let rest ← wireMore fromServer saved ms
      return chainBytes mem chain ++ rest

/-- The bytes that go to the transport: for each frame the header and the content of the chains.  The random numbers for the masks come from one
generator. -/
def wire (o : Endian.Order) (fromServer : Bool) : Random.Rng → List Out1 → Option (List UInt8)
  | _, [] => some []
  | rng, c :: cs => do
    let r ← sendFrame o fromServer c.type c.fin c.payload.length c.hdr c.mem c.saved rng c.chain
    let more ← wireMore fromServer r.saved c.more
    let rest ← wire o fromServer r.rng cs
    return r.header ++ chainBytes r.mem c.chain ++ more ++ rest

/-- Frames in an order RFC 6455 allows (section 5.4 and 5.5), `open_` being the kind of the fragmented message in progress: a control frame is whole and
has at most 125 bytes; a message starts with a text or binary frame when none is in progress and goes on with continuation frames until one with fin. -/
def Sequence : Option FrameType → List (FrameType × Bool × List UInt8) → Prop
  | _, [] => True
  | open_, (.ping, fin, p) :: fs => fin = true ∧ p.length ≤ 125 ∧ Sequence open_ fs
  | open_, (.pong, fin, p) :: fs => fin = true ∧ p.length ≤ 125 ∧ Sequence open_ fs
  | open_, (.continuation, fin, _) :: fs => open_ ≠ none ∧ Sequence (if fin then none else open_) fs
  | open_, (.text, fin, _) :: fs => open_ = none ∧ Sequence (if fin then none else some .text) fs
  | open_, (.binary, fin, _) :: fs => open_ = none ∧ Sequence (if fin then none else some .binary) fs
  | _, (.close, _, _) :: _ => False

/-- What a data frame looks like to the receiver: the bytes, each with the length of the frame, the fin flag and the kind of message, then the end. -/
def dataSeen (binary fin : Bool) (p : List UInt8) : List Seen :=
  p.map (fun b => .byte b p.length fin binary) ++ [.frameEnd p.length fin binary]

/-- What the receiver is to see: data as it was sent, each ping reported and answered, each pong reported. -/
def delivered : Option FrameType → List (FrameType × Bool × List UInt8) → List Seen
  | _, [] => []
  | open_, (.ping, _, p) :: fs => .other (.control 9 p) :: .other (.pong p) :: delivered open_ fs
  | open_, (.pong, _, p) :: fs => .other (.control 10 p) :: delivered open_ fs
  | open_, (.continuation, fin, p) :: fs => dataSeen (open_ = some .binary) fin p ++ delivered (if fin then none else open_) fs
  | _, (.text, fin, p) :: fs => dataSeen false fin p ++ delivered (if fin then none else some .text) fs
  | _, (.binary, fin, p) :: fs => dataSeen true fin p ++ delivered (if fin then none else some .binary) fs
  | _, (.close, _, _) :: _ => []

/-- The frame a call asks for. -/
def Out1.frame (c : Out1) : FrameType × Bool × List UInt8 := (c.type, c.fin, c.payload)

/-- No frame belongs to a text message. -/
def NoTextSent : Option FrameType → List (FrameType × Bool × List UInt8) → Prop
  | _, [] => True
  | open_, (.continuation, fin, _) :: fs => open_ ≠ some .text ∧ NoTextSent (if fin then none else open_) fs
  | _, (.text, _, _) :: _ => False
  | _, (.binary, fin, _) :: fs => NoTextSent (if fin then none else some .binary) fs
  | open_, _ :: fs => NoTextSent open_ fs

end Cio.WsRoundTrip
