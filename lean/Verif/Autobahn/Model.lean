import Verif.WsRecv.Model
/-
Model of the application in /repo/autobahn/autobahn_server.c (lines 40-140): the echo server used with the Autobahn test suite, an application of the WebSocket API
with a buffer of its own.  The read handler is a function of its arguments (`WsRecv.Out.chunk`, what websocket.c calls it with); what it does is the sequence of its
calls of the WebSocket API.  `write_complete` (lines 72-81) asks for the next data when the write was successful.
-/
namespace Cio.Autobahn
open WsRecv (Out)

/-- `READ_BUFFER_SIZE`, autobahn_server.c 45. -/
def readBufferSize : Nat := 10240

/-- `struct ws_autobahn_handler`, autobahn_server.c 53-60, without the write buffers. -/
structure App where
  index : Nat := 0
  startNew : Bool := true
  buf : List UInt8

/-- Calls of the WebSocket API: `cio_websocket_write_message_first_chunk`, `cio_websocket_write_message_continuation_chunk`, `cio_websocket_read_message`. -/
inductive Call where
  | first (frameLength : Nat) (payload : List UInt8) (lastFrame binary : Bool)
  | cont (payload : List UInt8)
  | read
deriving DecidableEq

/-- `read_handler` called with data, autobahn_server.c 83-127; `none` if the `memcpy` leaves `echo_buffer` or what is sent from there does. -/
def onData (a : App) (frameLength : Nat) (data : List UInt8) (lastChunk lastFrame binary : Bool) : Option (App × List Call) :=
  if frameLength ≤ readBufferSize then
    if a.index + data.length > a.buf.length then none
    else
      let buf := a.buf.take a.index ++ data ++ a.buf.drop (a.index + data.length)
      if lastChunk then
        if frameLength > buf.length then none
        else some ({ a with buf := buf, index := 0 }, [.first frameLength (buf.take frameLength) lastFrame binary])
      else some ({ a with buf := buf, index := a.index + data.length }, [.read])
  else
    some ({ a with startNew := lastChunk }, [if a.startNew then .first frameLength data lastFrame binary else .cont data])

/-- What the application does when something is shown to it: nothing for control frames (no `on_control` is set); errors are only logged. -/
def react (a : App) : Out → Option (App × List Call)
  | .chunk n d lc lf b => onData a n d lc lf b
  | _ => some (a, [])

/-- After `alloc_autobahn_handler`, autobahn_server.c 142-162; the contents of the buffer are whatever `malloc` returned.  All calls so far. -/
def serve (junk : List UInt8) : List Out → Option (App × List Call)
  | outs => outs.foldl (fun r x => match r with
      | none => none
      | some (a, cs) => match react a x with
        | none => none
        | some (a', cs') => some (a', cs ++ cs')) (some ({ buf := junk }, []))

end Cio.Autobahn
