import Verif.Common
import Verif.Masking.Spec
import Verif.Endian.Model
import Verif.Utf8.Model
import Verif.WsSend.Model
/-
Model of the receiving half of /repo/lib/src/websocket.c (lines 339-806 and 912-934).

The bytes come from the buffered stream: a handler registered with `read_at_least n` runs when `n` unread bytes are there and gets `n`,
one registered with `read_at_most n` runs when there is at least one (theorems C12-C14).  `step` runs the registered handler once if its read
is satisfied by the unread bytes `buf`.  Simplifications: the read handler asks for the next data each time it got some (by
`cio_websocket_read_message`); writing an answer to the peer (pong, close) succeeds; `on_control` is set; the transport does not fail;
the read buffer is big enough for a control frame (125 bytes).
-/
namespace Cio.WsRecv
open Masking (Mask Mem)

/-- The read handler registered at the buffered stream. -/
inductive Cont where
  | header | firstLen | len16 | len64 | mask | payload | stopped
deriving DecidableEq

/-- The receiving part of `struct cio_websocket_private`, websocket.h. -/
structure Rx where
  isServer : Bool
  selfClose : Bool
  addr : Nat
  fin : Bool := false
  opcode : Nat := 0
  frag : Nat := 0
  frameLength : Nat := 0
  remaining : Nat := 0
  mask : Mask := fun _ => 0
  utf8 : Utf8.State
  cont : Cont := .header

/-- What the code does visibly. -/
inductive Out where
  /-- the user's read handler is called with data -/
  | chunk (frameLength : Nat) (data : List UInt8) (lastChunk lastFrame binary : Bool)
  /-- `on_control` -/
  | control (kind : Nat) (data : List UInt8)
  /-- a pong with this payload is queued for sending -/
  | pong (data : List UInt8)
  /-- a close frame is queued in answer to the peer's -/
  | closeReply (status : Nat) (reason : List UInt8)
  /-- `close(websocket)` -/
  | closed
  /-- `handle_error` with this status code -/
  | fail (status : Nat)
  /-- undefined behaviour -/
  | ub
deriving DecidableEq

/-- The bytes `data`, lying at address `a`, in memory. -/
def memOf (a : Nat) (data : List UInt8) : Mem := fun x => if a ≤ x then data.getD (x - a) 0 else 0

/-- `cio_websocket_mask(data, length, mask)` on received data. -/
def unmaskAt (a : Nat) (mask : Mask) (data : List UInt8) : List UInt8 :=
  Masking.bytesAt (Masking.websocketMask (memOf a data) a data.length mask) a data.length

/-- `is_control_frame`, websocket.c 356-359. -/
def isControl (opcode : Nat) : Bool := decide (opcode ≥ 8)

/-- `is_invalid_status_code`, websocket.c 339-354. -/
def isInvalidStatusCode (s : Nat) : Bool :=
  if s ≥ 1000 ∧ s ≤ 1003 then false
  else if s ≥ 1007 ∧ s ≤ 1011 then false
  else if s ≥ 3000 ∧ s ≤ 4999 then false
  else true

/-- The handler stops because of a protocol violation. -/
def failed (rx : Rx) (status : Nat) : Rx × List Out := ({ rx with cont := .stopped }, [.fail status])

/-- What `cio_websocket_read_message` registers, websocket.c 919-925. -/
def readMessage (rx : Rx) : Rx := { rx with cont := if rx.remaining = 0 then .header else .payload }

/-- `handle_binary_frame`, websocket.c 390-400. -/
def handleBinary (rx : Rx) (data : List UInt8) (lastFrame : Bool) : Rx × List Out :=
  let lastChunk := decide (rx.remaining = 0)
  let rx := { rx with mask := if lastChunk then rx.mask else Masking.correctMask rx.mask data.length }
  (readMessage rx, [.chunk rx.frameLength data lastChunk lastFrame true])

/-- `handle_text_frame`, websocket.c 402-424. -/
def handleText (rx : Rx) (data : List UInt8) (lastFrame : Bool) : Rx × List Out :=
  match Utf8.check rx.utf8 rx.addr data with
  | none => ({ rx with cont := .stopped }, [.ub])
  | some (status, utf8) =>
    let rx := { rx with utf8 := utf8 }
    if status = Utf8.REJECT ∨ (lastFrame = true ∧ status ≠ Utf8.ACCEPT) then failed rx 1007
    else
      let lastChunk := decide (rx.remaining = 0)
      let rx := { rx with utf8 := if lastFrame then Utf8.init rx.utf8 else rx.utf8 }
      let rx := { rx with mask := if lastChunk then rx.mask else Masking.correctMask rx.mask data.length }
      (readMessage rx, [.chunk rx.frameLength data lastChunk lastFrame false])

/-- `handle_close_frame`, websocket.c 426-476; `a` is the address of the data.  The reason is checked with a length from which the size of
the status code has been subtracted twice: with a reason of one byte the length wraps around and the check runs out of the buffer (`ub`). -/
def handleClose (selfClose : Bool) (o : Endian.Order) (a : Nat) (data : List UInt8) : List Out :=
  if data.length = 1 then [.fail 1002]
  else
    let status := if data.length ≥ 2 then Endian.betoh o 2 (Endian.ofMem o (data.take 2)) else 1000
    if data.length ≥ 2 ∧ isInvalidStatusCode status = true then [.fail 1002]
    else
      let length := if data.length ≥ 2 then data.length - 2 else data.length
      let reply : List Out := .control 8 data ::
        if selfClose then [.closed] else [.closeReply status (if length > 0 then data.drop 2 else [])]
      if length > 0 then
        if length < 2 then [.ub]
        else
          match Utf8.check (Utf8.init ⟨0, 0⟩) (a + 2) ((data.drop 2).take (length - 2)) with
          | none => [.ub]
          | some (status, _) => if status ≠ Utf8.ACCEPT then [.fail 1007] else reply
      else reply

/-- `handle_ping_frame`, websocket.c 494-516, followed by `pong_frame_written`, 478-492.  The `memcpy` into the 125 byte buffer. -/
def handlePing (rx : Rx) (data : List UInt8) : Rx × List Out :=
  if data.length > 125 then ({ rx with cont := .stopped }, [.ub])
  else ({ rx with cont := .header }, [.control 9 data, .pong data])

/-- `handle_pong_frame`, websocket.c 518-529. -/
def handlePong (rx : Rx) (data : List UInt8) : Rx × List Out := ({ rx with cont := .header }, [.control 10 data])

/-- `handle_frame`, websocket.c 531-563. -/
def handleFrame (o : Endian.Order) (rx : Rx) (data : List UInt8) : Rx × List Out :=
  let data := if rx.isServer then unmaskAt rx.addr rx.mask data else data
  if rx.opcode = 2 then handleBinary rx data rx.fin
  else if rx.opcode = 1 then handleText rx data rx.fin
  else if rx.opcode = 9 then handlePing rx data
  else if rx.opcode = 10 then handlePong rx data
  else if rx.opcode = 8 then ({ rx with cont := .stopped }, handleClose rx.selfClose o rx.addr data)
  else failed rx 1002

/-- `read_payload`, websocket.c 600-621. -/
def readPayload (o : Endian.Order) (rx : Rx) : Rx × List Out :=
  if rx.remaining > 0 then ({ rx with cont := .payload }, []) else handleFrame o rx []

/-- `get_mask_or_payload`, websocket.c 637-647. -/
def getMaskOrPayload (o : Endian.Order) (rx : Rx) : Rx × List Out :=
  if rx.isServer then ({ rx with cont := .mask }, []) else readPayload o rx

/-- `handle_fin`, websocket.c 732-774; `none` if it returns an error message.  `rx.fin` has been set before. -/
def handleFin (rx : Rx) (b0 : UInt8) : Option Rx :=
  let opcode := (b0 &&& 0x0f).toNat
  if rx.fin = false ∧ opcode ≥ 8 then none
  else if rx.fin then
    if opcode ≠ 0 then
      if rx.frag ≠ 0 ∧ isControl opcode = false then none else some { rx with opcode := opcode }
    else if rx.frag = 0 then none
    else some { rx with opcode := rx.frag, frag := 0 }
  else
    if opcode ≠ 0 then
      if rx.frag ≠ 0 then none else some { rx with frag := opcode, opcode := opcode }
    else if rx.frag = 0 then none
    else some { rx with opcode := rx.frag }

/-- `get_header`, websocket.c 776-806. -/
def getHeader (rx : Rx) (b0 : UInt8) : Rx × List Out :=
  let rx := { rx with fin := b0 &&& 0x80 == 0x80 }
  if b0 &&& 0x70 ≠ 0 then failed rx 1002
  else
    match handleFin rx b0 with
    | none => failed rx 1002
    | some rx => ({ rx with cont := .firstLen }, [])

/-- `get_first_length`, websocket.c 691-730. -/
def getFirstLength (o : Endian.Order) (rx : Rx) (b1 : UInt8) : Rx × List Out :=
  let masked : Bool := b1 &&& 0x80 == 0x80
  if masked ≠ rx.isServer then failed rx 1002
  else
    let field := (b1 &&& 0x7f).toNat
    if field ≤ 125 then getMaskOrPayload o { rx with remaining := field, frameLength := field }
    else if isControl rx.opcode then failed rx 1002
    else if field = 126 then ({ rx with cont := .len16 }, [])
    else ({ rx with cont := .len64 }, [])

/-- `get_length16` and `get_length64`, websocket.c 649-689 (`SIZE_MAX` is `UINT64_MAX`, so the check there never fires). -/
def getLength (o : Endian.Order) (rx : Rx) (bs : List UInt8) : Rx × List Out :=
  let field := Endian.betoh o bs.length (Endian.ofMem o bs)
  getMaskOrPayload o { rx with remaining := field, frameLength := field }

/-- `get_mask`, websocket.c 623-635. -/
def getMask (o : Endian.Order) (rx : Rx) (bs : List UInt8) : Rx × List Out := readPayload o { rx with mask := WsSend.toMask bs }

/-- `get_payload`, websocket.c 580-598; `buf` are the unread bytes.  The result includes the unread bytes left. -/
def getPayload (o : Endian.Order) (rx : Rx) (buf : List UInt8) : Rx × List UInt8 × List Out :=
  let num := if isControl rx.opcode then rx.remaining else min rx.remaining buf.length
  let rx := if isControl rx.opcode then rx else { rx with remaining := rx.remaining - num }
  let (rx, outs) := handleFrame o rx (buf.take num)
  (rx, buf.drop num, outs)

/-- One run of the registered read handler; `none` if its read is not satisfied by the unread bytes `buf`. -/
def step (o : Endian.Order) (rx : Rx) (buf : List UInt8) : Option (Rx × List UInt8 × List Out) :=
  match rx.cont with
  | .header => match buf with | b :: rest => let (rx, outs) := getHeader rx b; some (rx, rest, outs) | [] => none
  | .firstLen => match buf with | b :: rest => let (rx, outs) := getFirstLength o rx b; some (rx, rest, outs) | [] => none
  | .len16 => if buf.length ≥ 2 then let (rx, outs) := getLength o rx (buf.take 2); some (rx, buf.drop 2, outs) else none
  | .len64 => if buf.length ≥ 8 then let (rx, outs) := getLength o rx (buf.take 8); some (rx, buf.drop 8, outs) else none
  | .mask => if buf.length ≥ 4 then let (rx, outs) := getMask o rx (buf.take 4); some (rx, buf.drop 4, outs) else none
  | .payload =>
    if isControl rx.opcode then if buf.length ≥ rx.remaining then some (getPayload o rx buf) else none
    else if buf.length ≥ 1 then some (getPayload o rx buf) else none
  | .stopped => none

/-- The loop of the buffered stream: run handlers as long as their reads are satisfied.  The read pointer `addr` advances by what was consumed. -/
def pump (o : Endian.Order) : Nat → Rx → List UInt8 → Rx × List UInt8 × List Out
  | 0, rx, buf => (rx, buf, [])
  | fuel + 1, rx, buf =>
    match step o rx buf with
    | none => (rx, buf, [])
    | some (rx, buf', outs) =>
      let (rx, buf'', outs') := pump o fuel { rx with addr := rx.addr + (buf.length - buf'.length) } buf'
      (rx, buf'', outs ++ outs')

/-- The transport delivers the stream in pieces; with each of them comes the address to which the read pointer has been moved (the read buffer
may be compacted when it is filled).  Each run of a handler uses up at least one byte, so `buf.length + 1` rounds suffice. -/
def run (o : Endian.Order) : Rx → List UInt8 → List (Nat × List UInt8) → Rx × List UInt8 × List Out
  | rx, buf, [] => (rx, buf, [])
  | rx, buf, (a, p) :: ps =>
    let (rx, buf, outs) := pump o ((buf ++ p).length + 1) { rx with addr := a } (buf ++ p)
    let (rx, buf, outs') := run o rx buf ps
    (rx, buf, outs ++ outs')

/-- After `cio_websocket_init` (websocket.c 834-864) and the first `cio_websocket_read_message`. -/
def start (isServer selfClose : Bool) (utf8 : Utf8.State) : Rx :=
  { isServer := isServer, selfClose := selfClose, addr := 0, utf8 := Utf8.init utf8 }

end Cio.WsRecv
