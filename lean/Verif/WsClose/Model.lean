import Verif.WsSend.Model
import Verif.Masking.Spec
/-
Model of how close frames are made in /repo/lib/src/websocket.c: `prepare_close_job` 225-248, `prepare_close_job_string` 250-259, the part of
`cio_websocket_close` 866-896 and of `handle_close_frame` 463-475 that calls them, and `send_frame` for the job (model `WsSend`).
-/
namespace Cio.WsClose
open Masking (Mem Mask)
open WsSend

/-- `memcpy(&buffer[i], bytes, ...)` into a buffer of `size` bytes at address `a`; `none` if it does not fit. -/
def copyTo (mem : Mem) (a size i : Nat) (bs : List UInt8) : Option Mem :=
  if i + bs.length ≤ size then some fun x => if a + i ≤ x ∧ x < a + i + bs.length then bs.getD (x - (a + i)) 0 else mem x else none

/-- `memcpy(..., reason, n)`: the bytes read; `reason` is what can be read at the pointer, `none` if `n` is more. -/
def readFrom (reason : List UInt8) (n : Nat) : Option (List UInt8) := if n ≤ reason.length then some (reason.take n) else none

/-- `CIO_WEBSOCKET_SMALL_FRAME_SIZE`, websocket.h 109: the size of `close_buffer.buffer`, websocket.h 128. -/
def bufferSize : Nat := 125

/-- `prepare_close_job`, websocket.c 225-248: fills `close_buffer.buffer`, which is at address `a`, and answers how many bytes of it make up the chain.
`status` is a value of the (unsigned) enum; the reason is NULL or a pointer to readable bytes. -/
def prepareClose (o : Endian.Order) (mem : Mem) (a status : Nat) (reason : Option (List UInt8)) (reasonLength : Nat) : Option (Mem × Nat) := do
  let code := Endian.htobe o 2 (status % 2 ^ 16)
  let mem ← copyTo mem a bufferSize 0 (Endian.toMem o 2 code)
  match reason with
  | none => return (mem, 2)
  | some r =>
    let n := min reasonLength (bufferSize - 2)
    let bytes ← readFrom r n
    let mem ← copyTo mem a bufferSize 2 bytes
    return (mem, 2 + n)

/-- `strlen`: `none` if there is no NUL in what can be read. -/
def strlen (s : List UInt8) : Option Nat := if 0 ∈ s then some (s.takeWhile (· ≠ 0)).length else none

/-- `prepare_close_job_string`, websocket.c 250-259. -/
def prepareCloseString (o : Endian.Order) (mem : Mem) (a status : Nat) (reason : Option (List UInt8)) : Option (Mem × Nat) := do
  let length ← match reason with
    | none => pure 0
    | some r => strlen r
  prepareClose o mem a status reason length

/-- The job is sent: `send_frame` with the chain that consists of the close buffer.  What the transport gets. -/
def sendClose (o : Endian.Order) (isServer : Bool) (hdr : List UInt8) (saved : Mask) (rng : Random.Rng) (a : Nat) (job : Option (Mem × Nat)) : Option (List UInt8) := do
  let (mem, n) ← job
  let r ← sendFrame o isServer .close true n hdr mem saved rng [(a, n)]
  return r.header ++ Masking.chainBytes r.mem [(a, n)]

/-- The close frame of `cio_websocket_close(websocket, status, reason, ...)`, websocket.c 866-896 (and of `handle_error`, 262-278). -/
def userClose (o : Endian.Order) (isServer : Bool) (hdr : List UInt8) (saved : Mask) (rng : Random.Rng) (mem : Mem) (a status : Nat) (reason : Option (List UInt8)) :
    Option (List UInt8) :=
  sendClose o isServer hdr saved rng a (prepareCloseString o mem a status reason)

/-- The close frame by which `handle_close_frame` answers, websocket.c 463-475; `reason` are the bytes behind the status code that was received. -/
def replyClose (o : Endian.Order) (isServer : Bool) (hdr : List UInt8) (saved : Mask) (rng : Random.Rng) (mem : Mem) (a status : Nat) (reason : List UInt8) : Option (List UInt8) :=
  sendClose o isServer hdr saved rng a (prepareClose o mem a status (if reason.length > 0 then some reason else none) reason.length)

/-- Every status code and text with which `handle_error` is called in websocket.c: lines 184, 302, 409, 431, 440, 451, 483, 490, 527, 560, 569, 571, 604 and 682,
616, 642, 705, 716, 728, 738, 744 and 759, 750 and 766, 792, 804, 930. -/
def ownCloses : List (Nat × String) :=
  [(1011, "Could not send frame"), (1011, "could not send next frame"), (1007, "payload not valid utf8"), (1002, "close payload of length 1"),
   (1002, "invalid status code in close"), (1007, "reason in close frame not utf8 valid"), (1011, "pong frame not written correctly"),
   (1011, "could not restart receiving after pong frame written"), (1011, "could not restart receiving handling a pong frame received"),
   (1002, "reserved opcode used"), (1000, "connection closed by other peer"), (1011, "error while reading websocket packet"),
   (1009, "websocket frame to large to process!"), (1011, "error while start reading websocket payload"), (1011, "error while start reading websocket mask"),
   (1002, "received unmasked frame on server websocket"), (1002, "payload of control frame too long"),
   (1011, "error while start reading extended websocket frame length"), (1002, "got fragmented control frame"),
   (1002, "got non-continuation frame within fragmented stream"), (1002, "got continuation frame without correct start frame"),
   (1002, "reserved bit set in frame"), (1011, "error while start reading websocket frame length"), (1011, "error while start reading websocket header")]

/-- The values of `enum cio_websocket_status_code`, websocket.h 83-95, that a user can pass (without the bounds of the ranges). -/
def offered : List Nat := [1000, 1001, 1002, 1003, 1005, 1007, 1008, 1009, 1010, 1011, 1012, 1013, 1015]

end Cio.WsClose
