import Verif.WsSend.Rfc6455
import Verif.Masking.Spec
import Verif.WsRecv.Model
/-
What an RFC 6455 receiver does with a byte stream, read as a whole.  Uses the frame grammar of `Verif.WsSend.Rfc6455` and the masking rule of
`Verif.Masking.Spec`.
-/
namespace Cio.WsRecv
open Rfc6455

/-- What the application and the peer get to see, not regarding how the data of one frame is cut into chunks. -/
inductive Seen where
  | byte (b : UInt8) (frameLength : Nat) (lastFrame binary : Bool)
  | frameEnd (frameLength : Nat) (lastFrame binary : Bool)
  | other (o : Out)
deriving DecidableEq

/-- What a visible action amounts to. -/
def seen1 : Out → List Seen
  | .chunk n data lastChunk lastFrame binary =>
    data.map (fun b => .byte b n lastFrame binary) ++ if lastChunk then [.frameEnd n lastFrame binary] else []
  | x => [.other x]

def seen (outs : List Out) : List Seen := outs.flatMap seen1

/-- RFC 6455 section 5.3. -/
def unmask (mask : Option (List UInt8)) (data : List UInt8) : List UInt8 :=
  match mask with
  | none => data
  | some k => Masking.xorFrom (fun i => k.getD i.val 0) 0 data

/-- Errors that show in the first byte of a frame: a reserved bit; a fragmented control frame; a continuation of nothing; a new message within a
fragmented one.  `frag` is the opcode of the fragmented message being received, or 0. -/
def badFirst (frag : Nat) (b0 : UInt8) : Bool :=
  let fin := decide (b0.toNat ≥ 128)
  let opcode := b0.toNat % 16
  decide (b0.toNat / 16 % 8 ≠ 0) || (!fin && decide (opcode ≥ 8)) || (decide (opcode = 0) && decide (frag = 0)) ||
    (decide (opcode ≠ 0) && decide (opcode < 8) && decide (frag ≠ 0))

/-- Errors that show in the second byte: mask bit missing or not allowed; control frame too long. -/
def badSecond (server : Bool) (opcode : Nat) (b1 : UInt8) : Bool :=
  (decide (b1.toNat ≥ 128) != server) || (decide (opcode ≥ 8) && decide (b1.toNat % 128 > 125))

/-- After the header of a frame: what is to be seen, and, if reading goes on, the fragmented message then in progress and the rest of the stream.
Nothing is to be seen of an incomplete control frame; the bytes of an incomplete data frame are. -/
def body (onClose : List UInt8 → List Seen) (frag : Nat) (h : Header) (rest : List UInt8) : List Seen × Option (Nat × List UInt8) :=
  let payload := unmask h.mask (rest.take h.len)
  let complete := decide (h.len ≤ rest.length)
  let kind := if h.opcode = 0 then frag else h.opcode
  if h.opcode ≥ 8 then
    if complete = false then ([], none)
    else if h.opcode = 8 then (onClose payload, none)
    else if h.opcode = 9 then ([.other (.control 9 payload), .other (.pong payload)], some (frag, rest.drop h.len))
    else if h.opcode = 10 then ([.other (.control 10 payload)], some (frag, rest.drop h.len))
    else ([.other (.fail 1002)], none)
  else if kind = 1 ∨ kind = 2 then
    let bytes := payload.map (fun b => Seen.byte b h.len h.fin (decide (kind = 2)))
    if complete = false then (bytes, none)
    else (bytes ++ [.frameEnd h.len h.fin (decide (kind = 2))], some (if h.fin then 0 else kind, rest.drop h.len))
  else if h.len = 0 ∨ rest ≠ [] then ([.other (.fail 1002)], none)
  else ([], none)

/-- Nothing is to be seen of an incomplete header. -/
def frameFrom (onClose : List UInt8 → List Seen) (frag : Nat) : Option (Header × List UInt8) → List Seen × Option (Nat × List UInt8)
  | none => ([], none)
  | some (h, rest) => body onClose frag h rest

/-- One frame at the start of the stream. -/
def frame (server : Bool) (onClose : List UInt8 → List Seen) (frag : Nat) : List UInt8 → List Seen × Option (Nat × List UInt8)
  | [] => ([], none)
  | b0 :: s1 =>
    if badFirst frag b0 then ([.other (.fail 1002)], none)
    else
      match s1 with
      | [] => ([], none)
      | b1 :: s2 =>
        if badSecond server (b0.toNat % 16) b1 then ([.other (.fail 1002)], none)
        else
          frameFrom onClose frag (parseHeader (b0 :: b1 :: s2))

/-- The receiver: what is to be seen of a stream of frames, `frag` being the opcode of the fragmented message in progress (0 if none).
`onClose` is what is to be seen when a close frame with this body has arrived.  Nothing is read after an error or a close frame.
(A frame is never empty, so the test on the lengths is always true: `receive_eq`.) -/
def receive (server : Bool) (onClose : List UInt8 → List Seen) (frag : Nat) (stream : List UInt8) : List Seen :=
  match frame server onClose frag stream with
  | (s, none) => s
  | (s, some (frag', rest)) => if rest.length < stream.length then s ++ receive server onClose frag' rest else s
termination_by stream.length

/-- The bytes of the text message in progress, `p` before. -/
def pend (p : List UInt8) : List Seen → List UInt8
  | [] => p
  | .byte b _ _ false :: l => pend (p ++ [b]) l
  | .frameEnd _ true false :: l => pend [] l
  | _ :: l => pend p l

/-- The text messages completed, the first one having started with `p`. -/
def texts (p : List UInt8) : List Seen → List (List UInt8)
  | [] => []
  | .byte b _ _ false :: l => texts (p ++ [b]) l
  | .frameEnd _ true false :: l => p :: texts [] l
  | _ :: l => texts p l

end Cio.WsRecv
