import Verif.WsStream.Steps
import Verif.WsRecv.Neg
/-
Property theorems: incoming WebSocket frames over the buffered stream (C18-C21).
-/
namespace Cio.WsStream
open BufferedRead (World)
open WsRecv (Out Seen seen outsOf streamOf receive onClose texts NoText TextOk Frame Legal NoTextFrames shownAll afterAll Malformed)

variable (e : Env)

/-- The websocket `e` with a read buffer `mem` got into state `w` by what happened. -/
def Reach (mem : List UInt8) (xs : List Ev) (w : World) : Prop := run e (BufferedRead.init mem) xs = some w

/-- What application and peer have seen so far. -/
def shown (w : World) : List Out := (e.sess w).outs

/-- The websocket reads no more: the connection failed or was closed by the peer. -/
def Stopped (w : World) : Prop := (e.sess w).rx.cont = .stopped

theorem reach_inv {mem : List UInt8} (hmem : 125 ≤ mem.length) {xs : List Ev} {w : World} (h : Reach e mem xs w) : Inv e mem.length (deliveries xs) w := by
  have := run_inv e hmem xs (init_inv e mem) h
  simpa using this

/-- The websocket uses the buffered stream as it has to be used: it never consumes more than there is, never asks for more than the buffer
holds, never registers a second read while one is pending. -/
theorem stream_used_properly (mem : List UInt8) (hmem : 125 ≤ mem.length) (xs : List Ev) (w : World) (h : Reach e mem xs w) :
    w.misuse = false ∧ w.refused = 0 ∧ w.overwritten = 0 ∧ w.ub = false := by
  have hi := reach_inv e hmem h
  exact ⟨hi.good.misuse, hi.good.refused, hi.good.over, hi.base.core.ub⟩

theorem waiting_none {sz : Nat} {ds : List (List UInt8)} {w : World} (hi : Inv e sz ds w) (hw : w.waiting = true) :
    WsRecv.step e.o (at' e w) w.rb.unread = none ∧ ¬ Stopped e w := by
  obtain ⟨_, _, j, hj, hns⟩ := hi.base.wait hw
  rcases hi.good.job with q | ⟨q, q2⟩
  · rw [hj] at q; cases q
  · rw [hj] at q; cases q
    exact ⟨(step_none_iff e.o (e.sess w).rx (e.base + w.rb.fetch) w.rb.unread q2).mpr hns, q2⟩

/-- The same for any state that satisfies the invariant with the pieces `ds`. -/
theorem inv_refines {sz : Nat} {ds : List (List UInt8)} {w : World} (hi : Inv e sz ds w) :
    ∃ pieces : List (Nat × List UInt8), pieces.map Prod.snd = ds ∧
      (shown e w <+: outsOf e.o e.server e.selfClose e.utf8 pieces ∨
        ∃ err ∈ w.transportErrs, shown e w = outsOf e.o e.server e.selfClose e.utf8 pieces ++ [.fail (codeOf err)]) ∧
      (w.waiting = true ∨ (Stopped e w ∧ w.transportErrs = []) → shown e w = outsOf e.o e.server e.selfClose e.utf8 pieces) := by
  obtain ⟨ps, p1, p2⟩ := hi.good.agree
  refine ⟨ps, p1, ?_, ?_⟩
  · rcases p2 with p2 | p2
    · left
      refine ⟨(togo e w).2.2, ?_⟩
      exact p2.outs.symm
    · obtain ⟨err, q1, q2⟩ := p2.outs
      exact .inr ⟨err, q1, q2⟩
  · intro hs
    rcases p2 with p2 | p2
    · have hn : WsRecv.step e.o (at' e w) w.rb.unread = none := by
        rcases hs with hs | ⟨hs, -⟩
        · exact (waiting_none e hi hs).1
        · exact WsRecv.step_stopped _ _ _ hs
      exact (p2.idle e hn).2.2.symm
    · rcases hs with hs | ⟨-, hs⟩
      · exact absurd p2.stopped (waiting_none e hi hs).2
      · obtain ⟨err, q1, q2⟩ := p2.outs
        rw [hs] at q1; cases q1

/-- C18: whatever arrives when, and whenever the application asks for more: what is seen is a part of what the receiver of `Cio.WsRecv` shows for
the pieces as the transport delivered them; all of it when the websocket has settled.  If the transport fails, the failure comes after all that. -/
theorem stream_refines (mem : List UInt8) (hmem : 125 ≤ mem.length) (xs : List Ev) (w : World) (h : Reach e mem xs w) :
    ∃ pieces : List (Nat × List UInt8), pieces.map Prod.snd = deliveries xs ∧
      (shown e w <+: outsOf e.o e.server e.selfClose e.utf8 pieces ∨
        ∃ err ∈ w.transportErrs, shown e w = outsOf e.o e.server e.selfClose e.utf8 pieces ++ [.fail (codeOf err)]) ∧
      (w.waiting = true ∨ (Stopped e w ∧ w.transportErrs = []) → shown e w = outsOf e.o e.server e.selfClose e.utf8 pieces) :=
  inv_refines e (reach_inv e hmem h)

/-- C20: no ill-formed text message is ever handed over completely, whatever arrives when. -/
theorem stream_texts_wellformed (mem : List UInt8) (hmem : 125 ≤ mem.length) (xs : List Ev) (w : World) (h : Reach e mem xs w) :
    ∀ m ∈ texts [] (seen (shown e w)), Utf8.WellFormed m := by
  obtain ⟨ps, _, p2, _⟩ := stream_refines e mem hmem xs w h
  have ht := WsRecv.text_messages_wellformed e.o e.server e.selfClose e.utf8 ps
  rcases p2 with ⟨more, p2⟩ | ⟨err, _, p2⟩
  · intro m hm
    apply ht
    rw [← p2, WsRecv.seen_append, WsRecv.texts_append]
    exact List.mem_append_left _ hm
  · intro m hm
    rw [p2, WsRecv.seen_append, WsRecv.texts_append] at hm
    rcases List.mem_append.mp hm with hm | hm
    · exact ht m hm
    · cases hm

/-- The pieces without their addresses: `TextOk` does not look at addresses. -/
def pieces0 (ds : List (List UInt8)) : List (Nat × List UInt8) := ds.map fun d => (0, d)

theorem streamOf_of (ps : List (Nat × List UInt8)) (ds : List (List UInt8)) (h : ps.map Prod.snd = ds) : streamOf ps = ds.flatten := by
  unfold streamOf; rw [h]

theorem textOk_of (server : Bool) (oc : List UInt8 → List Seen) (ps : List (Nat × List UInt8)) (ds : List (List UInt8)) (h : ps.map Prod.snd = ds)
    (ht : TextOk server oc (pieces0 ds)) : TextOk server oc ps := by
  have e0 : (pieces0 ds).map Prod.snd = ds := by simp [pieces0]
  have e1 : streamOf (pieces0 ds) = streamOf ps := by rw [streamOf_of _ _ e0, streamOf_of _ _ h]
  refine ⟨?_, ?_, ?_⟩
  · have := ht.complete; rw [e1] at this; exact this
  · have := ht.pending; rw [e1] at this; exact this
  · intro k b n
    have := ht.uncut k b n
    have e2 : streamOf ((pieces0 ds).take k) = streamOf (ps.take k) := by
      unfold streamOf; rw [List.map_take, List.map_take, e0, h]
    rw [e2] at this; exact this

/-- C70: if what has arrived contains a complete text message that is not well-formed, the connection has failed with 1007 by the time everything has been processed, whatever arrived when. -/
theorem stream_illformed_rejected (mem : List UInt8) (hmem : 125 ≤ mem.length) (xs : List Ev) (w : World) (h : Reach e mem xs w)
    (hs : w.waiting = true ∨ (Stopped e w ∧ w.transportErrs = [])) (m : List UInt8)
    (hm : m ∈ texts [] (receive e.server (onClose e.o e.selfClose) 0 (deliveries xs).flatten)) (hbad : ¬ Utf8.WellFormed m) :
    ∃ q, shown e w = q ++ [.fail 1007] := by
  obtain ⟨ps, p1, _, p3⟩ := stream_refines e mem hmem xs w h
  rw [← streamOf_of ps _ p1] at hm
  obtain ⟨q, hq⟩ := WsRecv.illformed_text_rejected e.o e.server e.selfClose e.utf8 ps m hm hbad
  exact ⟨q, by rw [p3 hs]; exact hq⟩

/-- C18: binary messages, pings and pongs, over the buffered stream: once the websocket waits for the transport (or has stopped without the transport
failing) exactly what RFC 6455 says about the bytes delivered so far has been seen, however they were delivered and whenever the
application asked for more. -/
theorem stream_binary_received (mem : List UInt8) (hmem : 125 ≤ mem.length) (xs : List Ev) (w : World) (h : Reach e mem xs w)
    (hs : w.waiting = true ∨ (Stopped e w ∧ w.transportErrs = []))
    (ht : NoText (receive e.server (onClose e.o e.selfClose) 0 (deliveries xs).flatten)) :
    seen (shown e w) = receive e.server (onClose e.o e.selfClose) 0 (deliveries xs).flatten := by
  obtain ⟨ps, p1, _, p3⟩ := stream_refines e mem hmem xs w h
  rw [p3 hs, ← streamOf_of ps _ p1]
  exact WsRecv.binary_received_as_specified e.o e.server e.selfClose e.utf8 ps (by rw [streamOf_of ps _ p1]; exact ht)

/-- C18, C20: the same with text, if no delivery ends inside a character of a final text frame.  Partial for that reason. -/
theorem stream_received_partial (mem : List UInt8) (hmem : 125 ≤ mem.length) (xs : List Ev) (w : World) (h : Reach e mem xs w)
    (hs : w.waiting = true ∨ (Stopped e w ∧ w.transportErrs = [])) (ht : TextOk e.server (onClose e.o e.selfClose) (pieces0 (deliveries xs))) :
    seen (shown e w) = receive e.server (onClose e.o e.selfClose) 0 (deliveries xs).flatten := by
  obtain ⟨ps, p1, _, p3⟩ := stream_refines e mem hmem xs w h
  rw [p3 hs, ← streamOf_of ps _ p1]
  exact WsRecv.received_as_specified_partial e.o e.server e.selfClose e.utf8 ps (textOk_of _ _ ps _ p1 ht)

theorem textOk_iff (server : Bool) (oc : List UInt8 → List Seen) (ps : List (Nat × List UInt8)) (ds : List (List UInt8)) (h : ps.map Prod.snd = ds) :
    TextOk server oc (pieces0 ds) ↔ TextOk server oc ps := by
  refine ⟨textOk_of server oc ps ds h, fun ht => ?_⟩
  refine textOk_of server oc (pieces0 ds) ds (by simp [pieces0]) ?_
  have e0 : (pieces0 ds).map Prod.snd = ds := by simp [pieces0]
  have e1 : streamOf (pieces0 ds) = streamOf ps := by rw [streamOf_of _ _ e0, streamOf_of _ _ h]
  refine ⟨by rw [e1]; exact ht.complete, by rw [e1]; exact ht.pending, fun k b n => ?_⟩
  have e2 : streamOf ((pieces0 ds).take k) = streamOf (ps.take k) := by
    unfold streamOf; rw [List.map_take, List.map_take, e0, h]
  rw [e2]
  exact ht.uncut k b n

/-- C18, C20: over the buffered stream, what is seen is what RFC 6455 says about the bytes delivered if and only if the text in them is well-formed as far as
it goes and no delivery ends inside a character of a final text frame. -/
theorem stream_received_iff (mem : List UInt8) (hmem : 125 ≤ mem.length) (xs : List Ev) (w : World) (h : Reach e mem xs w)
    (hs : w.waiting = true ∨ (Stopped e w ∧ w.transportErrs = [])) :
    seen (shown e w) = receive e.server (onClose e.o e.selfClose) 0 (deliveries xs).flatten ↔
      TextOk e.server (onClose e.o e.selfClose) (pieces0 (deliveries xs)) := by
  obtain ⟨ps, p1, _, p3⟩ := stream_refines e mem hmem xs w h
  rw [p3 hs, ← streamOf_of ps _ p1, textOk_iff _ _ ps _ p1]
  exact WsRecv.received_as_specified_iff e.o e.server e.selfClose e.utf8 ps

/-- C18: frames in, frames out, over the buffered stream. -/
theorem stream_frames_delivered (mem : List UInt8) (hmem : 125 ≤ mem.length) (xs : List Ev) (w : World) (h : Reach e mem xs w)
    (fs : List Frame) (hl : Legal e.server 0 fs) (hf : (deliveries xs).flatten = fs.flatMap Frame.wire) (hw : w.waiting = true)
    (ht : NoTextFrames 0 fs ∨ TextOk e.server (onClose e.o e.selfClose) (pieces0 (deliveries xs))) :
    seen (shown e w) = shownAll 0 fs := by
  obtain ⟨ps, p1, _, p3⟩ := stream_refines e mem hmem xs w h
  rw [p3 (.inl hw)]
  have hp : streamOf ps = fs.flatMap Frame.wire := by rw [streamOf_of ps _ p1, hf]
  rcases ht with ht | ht
  · exact WsRecv.binary_frames_delivered e.o e.server e.selfClose e.utf8 fs hl ht ps hp
  · exact WsRecv.frames_delivered_partial e.o e.server e.selfClose e.utf8 fs hl ps hp (textOk_of _ _ ps _ p1 ht)

/-- C19: a malformed header ends the connection with status 1002, over the buffered stream, and nothing behind it is seen. -/
theorem stream_malformed_fails_partial (mem : List UInt8) (hmem : 125 ≤ mem.length) (xs : List Ev) (w : World) (h : Reach e mem xs w)
    (fs : List Frame) (hl : Legal e.server 0 fs) (b0 b1 : UInt8) (rest : List UInt8) (hm : Malformed e.server (afterAll 0 fs) b0 b1)
    (hf : (deliveries xs).flatten = fs.flatMap Frame.wire ++ b0 :: b1 :: rest)
    (hs : w.waiting = true ∨ (Stopped e w ∧ w.transportErrs = []))
    (ht : NoTextFrames 0 fs ∨ TextOk e.server (onClose e.o e.selfClose) (pieces0 (deliveries xs))) :
    seen (shown e w) = shownAll 0 fs ++ [.other (.fail 1002)] := by
  obtain ⟨ps, p1, _, p3⟩ := stream_refines e mem hmem xs w h
  rw [p3 hs]
  exact WsRecv.malformed_fails_partial e.o e.server e.selfClose e.utf8 fs hl b0 b1 rest hm ps (by rw [streamOf_of ps _ p1, hf])
    (ht.imp id (textOk_of _ _ ps _ p1))

/-- C21: a ping is reported and answered with the same payload, in order, over the buffered stream. -/
theorem stream_ping_answered (mem : List UInt8) (hmem : 125 ≤ mem.length) (xs : List Ev) (w : World) (h : Reach e mem xs w)
    (fs : List Frame) (f : Frame) (gs : List Frame) (hl : Legal e.server 0 (fs ++ f :: gs)) (hop : f.opcode = 9)
    (hf : (deliveries xs).flatten = (fs ++ f :: gs).flatMap Frame.wire) (hw : w.waiting = true)
    (ht : NoTextFrames 0 (fs ++ f :: gs) ∨ TextOk e.server (onClose e.o e.selfClose) (pieces0 (deliveries xs))) :
    seen (shown e w) = shownAll 0 fs ++ [.other (.control 9 f.payload), .other (.pong f.payload)] ++ shownAll (afterAll 0 fs) gs := by
  obtain ⟨ps, p1, _, p3⟩ := stream_refines e mem hmem xs w h
  rw [p3 (.inl hw)]
  exact WsRecv.ping_answered e.o e.server e.selfClose e.utf8 fs f gs hl hop ps (by rw [streamOf_of ps _ p1, hf]) (ht.imp id (textOk_of _ _ ps _ p1))

/-! ### The websocket does not get stuck -/

/-- Left to itself the websocket comes to rest after finitely many rounds of the loop (each of which uses up a byte), if the transport starts
the reads asked for: then it waits for the transport, has stopped, is closed, or it is the application's (or the pong's) turn. -/
theorem comes_to_rest (mem : List UInt8) (hmem : 125 ≤ mem.length) (xs : List Ev) (w : World) (h : Reach e mem xs w) :
    ∃ n w', Reach e mem (xs ++ List.replicate n (.loop SUCCESS)) w' ∧ w'.looping = false := by
  have key : ∀ (k : Nat) (ds : List (List UInt8)) (w : World), Inv e mem.length ds w →
      load w < k →
      ∃ n w', run e w (List.replicate n (.loop SUCCESS)) = some w' ∧ w'.looping = false := by
    intro k
    induction k with
    | zero => intro ds w _ hk; omega
    | succ k ih =>
      intro ds w hi hk
      by_cases hl : w.looping = true
      · have hst : step e w (.loop SUCCESS) = some (BufferedRead.loopIter (handler e) w SUCCESS) := by simp [step, BufferedRead.step, hl]
        have hi' := step_loop e hmem SUCCESS hi hst
        have done : ∀ n w', run e (BufferedRead.loopIter (handler e) w SUCCESS) (List.replicate n (.loop SUCCESS)) = some w' → w'.looping = false →
            ∃ n w', run e w (List.replicate n (.loop SUCCESS)) = some w' ∧ w'.looping = false := by
          intro n w' hr hf
          refine ⟨n + 1, w', ?_, hf⟩
          rw [List.replicate_succ, run, hst]; exact hr
        by_cases hlo : (BufferedRead.loopIter (handler e) w SUCCESS).looping = false
        · exact done 0 _ rfl hlo
        · have hless : load (BufferedRead.loopIter (handler e) w SUCCESS) < k := by
            cases hj : w.job with
            | none => exfalso; apply hlo; unfold BufferedRead.loopIter; rw [hj]
            | some j =>
              unfold load at hk
              rw [if_neg (by rw [hj]; simp)] at hk
              rcases runJob_progress e hmem hi hl j hj with hp | r2
              · exfalso; apply hlo; unfold BufferedRead.loopIter; rw [hj]; simp only; rw [hp]
              · have hlit : BufferedRead.loopIter (handler e) w SUCCESS = (BufferedRead.runJob (handler e) w j).1 := by
                  unfold BufferedRead.loopIter at hlo ⊢
                  rw [hj] at hlo ⊢
                  simp only at hlo ⊢
                  generalize BufferedRead.runJob (handler e) w j = r at hlo r2 ⊢
                  obtain ⟨v, st⟩ := r
                  cases st with
                  | again => exact absurd rfl hlo
                  | closed => exact absurd rfl hlo
                  | «open» => rfl
                rw [hlit]
                omega
          obtain ⟨n, w', hr, hf⟩ := ih ds _ hi' hless
          exact done n w' hr hf
      · exact ⟨0, w, rfl, by simpa using hl⟩
  have hi := reach_inv e hmem h
  obtain ⟨n, w', hr, hf⟩ := key _ _ w hi (Nat.lt_succ_self _)
  refine ⟨n, w', ?_, hf⟩
  unfold Reach at h ⊢
  have happ : ∀ (xs ys : List Ev) (v : World), run e v (xs ++ ys) = (run e v xs).bind fun u => run e u ys := by
    intro xs
    induction xs with
    | nil => intro ys v; rfl
    | cons x xs ihx =>
      intro ys v
      simp only [List.cons_append, run]
      cases step e v x with
      | none => rfl
      | some u => exact ihx ys u
  rw [happ, h]; exact hr

/-- At rest: what is registered is under way. -/
theorem rest_cases (mem : List UInt8) (hmem : 125 ≤ mem.length) (xs : List Ev) (w : World) (h : Reach e mem xs w) (hl : w.looping = false)
    (hc : w.closed = false) : w.waiting = true ∨ Stopped e w ∨ (w.job = none ∧ (w.calls = [] ∨ (e.sess w).mayPause = true)) := by
  have hi := reach_inv e hmem h
  by_cases hj : w.job = none
  · by_cases hst : (e.sess w).rx.cont = .stopped
    · exact .inr (.inl hst)
    · exact .inr (.inr ⟨hj, hi.good.idle hj hst⟩)
  · exact .inl (hi.pend hj hl hc)

/-! ### The theorems are about something -/

/-- A server's websocket with a buffer of 125 bytes whose application takes its time. -/
def exEnv : Env := ⟨.little, 4096, true, false, ⟨0, 0⟩, fun _ => true, fun _ => false⟩

/-- A masked binary frame with five bytes, then a ping; the first arrives in two pieces, the second of which contains the ping, too; the application
asks for the rest of the frame only when everything has arrived. -/
def exEvents : List Ev := [.next, .loop 0, .deliver [0x82, 0x85, 1, 2, 3, 4, 0x41], .loop 0, .loop 0, .loop 0, .loop 0, .loop 0, .next, .loop 0,
  .deliver [0x40, 0x41, 0x42, 0x43, 0x89, 0x82, 9, 8, 7, 6, 9, 9], .loop 0, .loop 0, .next, .loop 0, .loop 0, .loop 0, .loop 0, .loop 0, .next, .loop 0]

set_option maxRecDepth 4000 in
/-- It ends up waiting, and this is what was seen. -/
example : (run exEnv (BufferedRead.init (List.replicate 125 0)) exEvents).map (fun w => (w.waiting, shown exEnv w)) =
    some (true, [.chunk 5 [0x40] false true true, .chunk 5 [0x42, 0x42, 0x46, 0x42] true true true, .control 9 [0, 1], .pong [0, 1]]) := by
  decide +kernel

end Cio.WsStream
