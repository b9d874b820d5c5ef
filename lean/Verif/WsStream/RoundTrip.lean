import Verif.WsStream.Props
import Verif.WsRoundTrip.EndToEnd
/-
C45 over the buffered stream: frames made by one WebSocket (`Cio.WsSend`, `Cio.Masking`, `Cio.WsQueue`), received by the other one through its
buffered stream (`Cio.WsStream`), for everything that can happen in between: when bytes arrive, how many at a time, when the application asks for
more, when the transport fails.
-/
namespace Cio.WsStream
open BufferedRead (World)
open WsRecv (Out Seen seen outsOf streamOf receive onClose)
open WsRoundTrip (Out1 Sequence NoTextSent TextFine delivered wire)

variable (e : Env)

theorem run_prefix (o : Endian.Order) (rx : WsRecv.Rx) (buf : List UInt8) (ps qs : List (Nat × List UInt8)) :
    (WsRecv.run o rx buf ps).2.2 <+: (WsRecv.run o rx buf (ps ++ qs)).2.2 := by
  induction ps generalizing rx buf with
  | nil => exact List.nil_prefix
  | cons q ps ih =>
    obtain ⟨a, q⟩ := q
    rw [List.cons_append, WsRecv.run, WsRecv.run]
    generalize WsRecv.pump o ((buf ++ q).length + 1) { rx with addr := a } (buf ++ q) = r
    obtain ⟨rx', buf', outs⟩ := r
    obtain ⟨t, ht⟩ := ih rx' buf'
    refine ⟨t, ?_⟩
    dsimp only
    rw [List.append_assoc, ht]

theorem outsOf_prefix (o : Endian.Order) (server sc : Bool) (u : Utf8.State) (ps qs : List (Nat × List UInt8)) :
    seen (outsOf o server sc u ps) <+: seen (outsOf o server sc u (ps ++ qs)) := by
  obtain ⟨t, ht⟩ := run_prefix o (WsRecv.start server sc u) [] ps qs
  refine ⟨seen t, ?_⟩
  rw [← WsRecv.seen_append]
  exact congrArg seen ht

/-- C45: frames of a WebSocket that belong to no text message, on their way to the other one.  However far the bytes have got and whatever the
receiving side is doing, its application has seen a beginning of what was sent (then, if the transport failed, that); when all bytes have arrived and
it waits for more, all of it. -/
theorem binary_sent_is_seen (o : Endian.Order) (fromServer : Bool) (rng : Random.Rng) (cs : List Out1) (hok : ∀ c ∈ cs, c.Ok fromServer)
    (hs : Sequence none (cs.map Out1.frame)) (hb : NoTextSent none (cs.map Out1.frame)) :
    ∃ bytes, wire o fromServer rng cs = some bytes ∧
      ∀ (e : Env) (mem : List UInt8) (xs : List Ev) (w : World), e.server = !fromServer → 125 ≤ mem.length → Reach e mem xs w →
        (deliveries xs).flatten <+: bytes →
        (∃ part, part <+: delivered none (cs.map Out1.frame) ∧
          (seen (shown e w) = part ∨ ∃ err ∈ w.transportErrs, seen (shown e w) = part ++ [.other (.fail (codeOf err))])) ∧
        ((deliveries xs).flatten = bytes → w.waiting = true → seen (shown e w) = delivered none (cs.map Out1.frame)) := by
  obtain ⟨bytes, h1, fs, h2, h3, h4, h5⟩ : ∃ bytes, wire o fromServer rng cs = some bytes ∧ ∃ fs, bytes = fs.flatMap WsRecv.Frame.wire ∧
      WsRecv.Legal (!fromServer) 0 fs ∧ WsRecv.shownAll 0 fs = delivered none (cs.map Out1.frame) ∧ WsRecv.NoTextFrames 0 fs := by
    obtain ⟨bytes, fs, w1, w2, w3, w4, w5⟩ := WsRoundTrip.wire_frames o fromServer rng cs hok none (.inl rfl) hs
    exact ⟨bytes, w1, fs, w2, w3, w4, w5 hb⟩
  refine ⟨bytes, h1, fun e mem xs w hserver hmem hr hp => ?_⟩
  have key : ∀ ps, streamOf ps = bytes → seen (outsOf e.o e.server e.selfClose e.utf8 ps) = delivered none (cs.map Out1.frame) := by
    intro ps hps
    rw [← h4, hserver]
    exact WsRecv.binary_frames_delivered e.o (!fromServer) e.selfClose e.utf8 fs h3 h5 ps (hps.trans h2)
  obtain ⟨ps, p1, p2, p3⟩ := stream_refines e mem hmem xs w hr
  obtain ⟨rest, hrest⟩ := hp
  have hall : seen (outsOf e.o e.server e.selfClose e.utf8 ps) <+: delivered none (cs.map Out1.frame) := by
    have := outsOf_prefix e.o e.server e.selfClose e.utf8 ps [(0, rest)]
    rwa [key (ps ++ [(0, rest)]) (by
      rw [← hrest, ← streamOf_of ps _ p1]; simp [streamOf])] at this
  constructor
  · rcases p2 with ⟨t, p2⟩ | ⟨err, q1, q2⟩
    · refine ⟨seen (shown e w), List.IsPrefix.trans ⟨seen t, ?_⟩ hall, .inl rfl⟩
      rw [← WsRecv.seen_append, p2]
    · refine ⟨_, hall, .inr ⟨err, q1, ?_⟩⟩
      rw [q2, WsRecv.seen_append]; rfl
  · intro hd hw
    rw [p3 (.inl hw)]
    exact key ps (by rw [streamOf_of ps _ p1]; exact hd)

/-- C45 with text.  Partial: the text must be well-formed and no delivery may end inside a character of it. -/
theorem sent_is_seen_partial (o : Endian.Order) (fromServer : Bool) (rng : Random.Rng) (cs : List Out1) (hok : ∀ c ∈ cs, c.Ok fromServer)
    (hs : Sequence none (cs.map Out1.frame)) :
    ∃ bytes, wire o fromServer rng cs = some bytes ∧
      ∀ (e : Env) (mem : List UInt8) (xs : List Ev) (w : World), e.server = !fromServer → 125 ≤ mem.length → Reach e mem xs w →
        (deliveries xs).flatten = bytes → w.waiting = true →
        TextFine (!fromServer) (onClose e.o e.selfClose) (delivered none (cs.map Out1.frame)) (pieces0 (deliveries xs)) →
        seen (shown e w) = delivered none (cs.map Out1.frame) := by
  obtain ⟨bytes, fs, h1, h2, h3, h4, -⟩ := WsRoundTrip.wire_frames o fromServer rng cs hok none (.inl rfl) hs
  refine ⟨bytes, h1, fun e mem xs w hserver hmem hr hd hw ht => ?_⟩
  rw [← h4]
  refine stream_frames_delivered e mem hmem xs w hr fs (hserver ▸ h3) (hd.trans h2) hw (.inr ?_)
  have e0 := WsRecv.receive_frames (onClose e.o e.selfClose) (!fromServer) 0 fs [] h3
  rw [WsRecv.receive_nil, List.append_nil, List.append_nil] at e0
  have e1 : streamOf (pieces0 (deliveries xs)) = bytes := by
    rw [streamOf_of _ (deliveries xs) (by simp [pieces0]), hd]
  have e2 : receive e.server (onClose e.o e.selfClose) 0 (streamOf (pieces0 (deliveries xs))) = delivered none (cs.map Out1.frame) := by
    rw [e1, h2, hserver, e0, ← h4]; rfl
  exact ⟨by rw [e2]; exact ht.complete, by rw [e2]; exact ht.pending, hserver ▸ ht.uncut⟩

/-- C45, from the calls of one application to what the other one sees: messages and pings queued at one WebSocket (`Cio.WsQueue`), whole frames, no text. -/
theorem queued_is_seen_partial {s : WsQueue.State} (h : WsQueue.Reach s) (hc : WsQueue.Clean s)
    (hw : ∀ f ∈ WsQueue.framesBC s.w.log, f.cont = false ∧ f.announced = f.size) (o : Endian.Order) (fromServer : Bool) (rng : Random.Rng) (cs : List Out1)
    (hr : List.Forall₂ WsRoundTrip.Realises cs (WsQueue.framesBC s.w.log)) (hok : ∀ c ∈ cs, c.Ok fromServer) (hb : NoTextSent none (cs.map Out1.frame)) :
    ∃ bytes, wire o fromServer rng cs = some bytes ∧
      ∀ (e : Env) (mem : List UInt8) (xs : List Ev) (w : World), e.server = !fromServer → 125 ≤ mem.length → Reach e mem xs w →
        (deliveries xs).flatten <+: bytes →
        (∃ part, part <+: delivered none (cs.map Out1.frame) ∧
          (seen (shown e w) = part ∨ ∃ err ∈ w.transportErrs, seen (shown e w) = part ++ [.other (.fail (codeOf err))])) ∧
        ((deliveries xs).flatten = bytes → w.waiting = true → seen (shown e w) = delivered none (cs.map Out1.frame)) :=
  binary_sent_is_seen o fromServer rng cs hok
    (WsRoundTrip.sequence_of_legal cs _ hr (fun f hf => (hw f hf).1) none true (.inl rfl) (by simp) (WsQueue.frames_legal_partial h hc)) hb

/-- The hypotheses are met: a server sends a binary message and a ping; the client's application gets them through a buffer of 125 bytes, the frame in two pieces. -/
def exSent : List Out1 :=
  [{ type := .binary, fin := true, hdr := List.replicate 14 0, mem := WsRoundTrip.exMem, saved := WsSend.toMask [], chain := [(10, 3), (20, 2)] },
   { type := .ping, fin := true, hdr := List.replicate 14 0, mem := WsRoundTrip.exMem, saved := WsSend.toMask [], chain := [(7, 1)] }]
def exClient : Env := ⟨.big, 4096, false, false, ⟨0, 0⟩, fun _ => true, fun _ => false⟩
def exArrive : List Ev := [.next, .loop 0, .deliver [0x82, 5, 10], .loop 0, .loop 0, .loop 0, .loop 0, .next, .loop 0,
  .deliver [11, 12, 20, 21, 0x89, 1, 7], .loop 0, .loop 0, .next, .loop 0, .loop 0, .loop 0, .loop 0, .next, .loop 0]
example : Sequence none (exSent.map Out1.frame) ∧ NoTextSent none (exSent.map Out1.frame) := by
  refine ⟨?_, ?_⟩ <;> simp [exSent, Out1.frame, Sequence, NoTextSent, Out1.payload, Masking.chainBytes, Masking.bytesAt]
example : ∀ c ∈ exSent, c.Ok true := by
  intro c hc
  simp only [exSent, List.mem_cons, List.not_mem_nil, or_false] at hc
  rcases hc with rfl | rfl
  · refine ⟨rfl, ?_, by simp, by simp [Out1.payload, Masking.chainBytes, Masking.bytesAt], by simp⟩
    simp only [Masking.Separate, List.pairwise_cons]
    refine ⟨?_, ?_, List.Pairwise.nil⟩ <;> intro q hq <;> simp at hq
    subst hq; intro x; simp; omega
  · refine ⟨rfl, by simp [Masking.Separate], by simp, by simp [Out1.payload, Masking.chainBytes, Masking.bytesAt], by simp⟩
set_option maxRecDepth 4000 in
example : wire .little true (Random.srandom 1 2) exSent = some (deliveries exArrive).flatten := by decide +kernel
set_option maxRecDepth 4000 in
example : (run exClient (BufferedRead.init (List.replicate 125 0)) exArrive).map (fun w => (w.waiting, seen (shown exClient w))) =
    some (true, delivered none (exSent.map Out1.frame)) := by decide +kernel

end Cio.WsStream
