import Verif.WsStream.Props
import Verif.HttpChunks.Upgrade
/-
A websocket on a connection that was an HTTP connection before (C61): the buffered stream and its read buffer are the ones the HTTP server used
(websocket_location_handler.c 319, websocket.c 924: `http_client->buffered_stream` and `http_client->rb`), with whatever is still unread in the buffer.
-/
namespace Cio.WsStream
open BufferedRead (World ReadBuffer RbOk)
open WsRecv (Frame Legal NoTextFrames TextOk onClose shownAll streamOf seen outsOf texts)

variable (e : Env)

/-- The buffered stream when the websocket begins to read: `rb` is the read buffer as the HTTP server left it; the history is that of the websocket.
(`on_connect` may run within `parse`, before the end of the header is consumed; a read asked for there begins when `parse` has returned,
buffered_stream.c 107-112.) -/
def handedOver (rb : ReadBuffer) : World := { rb := rb, received := rb.unread }

theorem handedOver_inv {rb : ReadBuffer} (hrb : RbOk rb.mem.length rb) : Inv e rb.mem.length [rb.unread] (handedOver rb) := by
  have hok : Ok e.selfClose (WsRecv.start e.server e.selfClose e.utf8) := fun _ => ⟨[], rfl, by simp [WsRecv.start], rfl, fun h => (by cases h),
    fun h => (by rcases h with h | h <;> cases h), fun h => (by rcases h with h | h <;> cases h), by decide⟩
  have hbase : BufferedRead.Inv rb.mem.length (handedOver rb) := by
    refine ⟨⟨hrb, rfl, fun n h => (by cases h), fun c h => (by cases h), rfl, fun h => absurd rfl h, rfl⟩, rfl, fun h => (by cases h)⟩
  have hat : at' e (handedOver rb) = { WsRecv.start e.server e.selfClose e.utf8 with addr := e.base + rb.fetch } := rfl
  have hid : ideal e [(e.base + rb.fetch, rb.unread)] = togo e (handedOver rb) := by
    unfold ideal togo
    rw [hat]
    simp only [WsRecv.run, List.nil_append]
    show (_, _, _ ++ []) = _
    rw [List.append_nil]
    rfl
  refine ⟨hbase, ⟨rfl, rfl, rfl, .inl rfl, hok, fun h => (by cases h), fun h => absurd rfl h, by simp [handedOver], fun _ _ => .inl rfl,
    [(e.base + rb.fetch, rb.unread)], rfl, .inl ⟨fun a => by rw [hid], by rw [hid], ?_⟩⟩, fun h => (by cases h), fun h => absurd rfl h⟩
  rw [hid]; rfl

/-- The websocket got into state `w` after it took over the buffer `rb`. -/
def ReachFrom (rb : ReadBuffer) (xs : List Ev) (w : World) : Prop := run e (handedOver rb) xs = some w

theorem reachFrom_inv {rb : ReadBuffer} (hrb : RbOk rb.mem.length rb) (hmem : 125 ≤ rb.mem.length) {xs : List Ev} {w : World} (h : ReachFrom e rb xs w) :
    Inv e rb.mem.length (rb.unread :: deliveries xs) w := by
  have := run_inv e hmem xs (handedOver_inv e hrb) h
  simpa using this

/-- C61: frames in, frames out: if the frames' bytes are what the buffer held when the websocket took over, and what was delivered later, the application has seen
exactly these frames when the websocket waits for the transport. -/
theorem frames_after_upgrade (rb : ReadBuffer) (hrb : RbOk rb.mem.length rb) (hmem : 125 ≤ rb.mem.length) (xs : List Ev) (w : World) (h : ReachFrom e rb xs w)
    (fs : List Frame) (hl : Legal e.server 0 fs) (hf : rb.unread ++ (deliveries xs).flatten = fs.flatMap Frame.wire) (hw : w.waiting = true)
    (ht : NoTextFrames 0 fs ∨ TextOk e.server (onClose e.o e.selfClose) (pieces0 (rb.unread :: deliveries xs))) :
    seen (shown e w) = shownAll 0 fs := by
  obtain ⟨ps, p1, _, p3⟩ := inv_refines e (reachFrom_inv e hrb hmem h)
  rw [p3 (.inl hw)]
  have hp : streamOf ps = fs.flatMap Frame.wire := by rw [streamOf_of ps _ p1, List.flatten_cons, hf]
  rcases ht with ht | ht
  · exact WsRecv.binary_frames_delivered e.o e.server e.selfClose e.utf8 fs hl ht ps hp
  · exact WsRecv.frames_delivered_partial e.o e.server e.selfClose e.utf8 fs hl ps hp (textOk_of _ _ ps _ p1 ht)

/-- C61: from the first request to the last frame: a client sends requests, an upgrade request and, without waiting, frames; everything may arrive in any
pieces.  If the HTTP server has handed over the connection (`s`), the read buffer `rb` holds what has arrived and was not consumed, and the rest was
delivered later, the application has seen exactly the frames when the websocket waits for the transport. -/
theorem frames_behind_upgrade_partial (pre : List HttpChunks.Req) (u : HttpChunks.Req) (fs : List Frame) (hpre : ∀ q ∈ pre, q.HasLength)
    (hok : ∀ q ∈ pre ++ [u], q.Ok) (hu : u.IsUpgrade) (s : HttpChunks.UState)
    (hs : HttpChunks.UReach (fs.flatMap Frame.wire).length (HttpChunks.opened pre u (fs.flatMap Frame.wire)) s) (hm : s.mode = .upgraded)
    (rb : ReadBuffer) (hrb : RbOk rb.mem.length rb) (hmem : 125 ≤ rb.mem.length) (xs : List Ev) (w : World) (h : ReachFrom e rb xs w)
    (harr : HttpChunks.chunkBytes s.http.rest = rb.unread ++ (deliveries xs).flatten)
    (hl : Legal e.server 0 fs) (hw : w.waiting = true)
    (ht : NoTextFrames 0 fs ∨ TextOk e.server (onClose e.o e.selfClose) (pieces0 (rb.unread :: deliveries xs))) :
    seen (shown e w) = shownAll 0 fs := by
  have hb := ((HttpChunks.behind_upgrade_untouched_partial pre u (fs.flatMap Frame.wire) hpre hok hu s hs).2.1 hm).1
  exact frames_after_upgrade e rb hrb hmem xs w h fs hl (by rw [← harr, hb]) hw ht

/-! ### The theorems are about something -/

/-- A read buffer of 130 bytes: five bytes were consumed by the HTTP server, a part of a frame is left. -/
def exRb : ReadBuffer := ⟨[71, 69, 84, 13, 10, 0x82, 0x85, 1, 2, 3, 4, 0x41] ++ List.replicate 118 0, 12, 5⟩

set_option maxRecDepth 4000 in
/-- The websocket reads it, and the rest of the frame when it arrives. -/
example : RbOk exRb.mem.length exRb ∧ 125 ≤ exRb.mem.length ∧
    (run exEnv (handedOver exRb) [.next, .loop 0, .loop 0, .loop 0, .loop 0, .loop 0, .next, .loop 0, .deliver [0x40, 0x41, 0x42, 0x43], .loop 0, .loop 0, .next, .loop 0]).map
      (fun w => (w.waiting, shown exEnv w)) = some (true, [.chunk 5 [0x40] false true true, .chunk 5 [0x42, 0x42, 0x46, 0x42] true true true]) := by
  refine ⟨⟨rfl, by decide, by decide⟩, by decide, by decide +kernel⟩

end Cio.WsStream
