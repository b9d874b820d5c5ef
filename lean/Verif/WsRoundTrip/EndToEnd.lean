import Verif.WsRoundTrip.Props
import Verif.WsQueue.FrameSeqProps
/-
C45 from the user's calls to the other side's application: the write-job queue of the sender (model `WsQueue`) decides the order of the frames, `send_frame`
(model `WsSend`) makes the bytes, the transport cuts them, the reading half of the other side (model `WsRecv`) delivers.
-/
namespace Cio.WsRoundTrip
open WsSend WsRecv
open WsQueue (Fr LegalFrames framesBC Reach Clean)

/-- The call `c` of `send_frame` is the one the queue made for the frame `f`: opcode, fin and number of bytes agree, and the frame was given as a whole. -/
structure Realises (c : Out1) (f : Fr) : Prop where
  opcode : rfcOpcode c.type = f.opcode
  fin : c.fin = f.fin
  size : c.payload.length = f.size
  whole : c.more = []

theorem sequence_of_legal (cs : List Out1) (fs : List Fr) (hr : List.Forall₂ Realises cs fs) (hc : ∀ f ∈ fs, f.cont = false) (op : Option FrameType) (idle : Bool)
    (hop : op = none ∨ op = some .text ∨ op = some .binary) (hi : idle = true ↔ op = none) (hl : LegalFrames idle fs) : Sequence op (cs.map Out1.frame) := by
  induction hr generalizing op idle with
  | nil => trivial
  | @cons c f cs fs h1 h2 ih =>
    have ih := ih (fun f hf => hc f (List.mem_cons_of_mem _ hf))
    have hcf := hc f List.mem_cons_self
    obtain ⟨ho, hfin, hsz, -⟩ := h1
    obtain ⟨t, fin, hdr, mem, saved, chain, mo⟩ := c
    unfold LegalFrames at hl
    cases hk : f.kind with
    | close => rw [hk] at hl; exact absurd hl id
    | ping =>
      rw [hk] at hl
      obtain ⟨-, l2, l3, -, l5, l6⟩ := hl
      have : t = .ping := by rw [l2] at ho; revert ho; cases t <;> simp [rfcOpcode]
      subst this
      exact ⟨hfin.trans l3, by show (Out1.payload _).length ≤ 125; rw [hsz]; exact l5, ih op idle hop hi l6⟩
    | pong =>
      rw [hk] at hl
      obtain ⟨-, l2, l3, -, l5, l6⟩ := hl
      have : t = .pong := by rw [l2] at ho; revert ho; cases t <;> simp [rfcOpcode]
      subst this
      exact ⟨hfin.trans l3, by show (Out1.payload _).length ≤ 125; rw [hsz]; exact l5, ih op idle hop hi l6⟩
    | message =>
      rw [hk] at hl
      simp only [hcf, Bool.false_eq_true, if_false] at hl
      obtain ⟨l1, l2⟩ := hl
      have hfin' : fin = f.fin := hfin
      cases idle with
      | true =>
        have hn := hi.mp rfl
        subst hn
        simp only [if_true] at l1
        rcases l1 with l1 | l1
        · have : t = .text := by rw [l1] at ho; revert ho; cases t <;> simp [rfcOpcode]
          subst this
          refine ⟨rfl, ih _ f.fin (by cases fin <;> simp) ?_ l2⟩
          rw [← hfin']; cases fin <;> simp
        · have : t = .binary := by rw [l1] at ho; revert ho; cases t <;> simp [rfcOpcode]
          subst this
          refine ⟨rfl, ih _ f.fin (by cases fin <;> simp) ?_ l2⟩
          rw [← hfin']; cases fin <;> simp
      | false =>
        have hn : op ≠ none := fun h => by have := hi.mpr h; cases this
        simp only [Bool.false_eq_true, if_false] at l1
        have : t = .continuation := by rw [l1] at ho; revert ho; cases t <;> simp [rfcOpcode]
        subst this
        refine ⟨hn, ih _ f.fin (by cases fin <;> simp [hop]) ?_ l2⟩
        rw [← hfin']; cases fin <;> simp [hn]

/-- C45, binary data: whatever the user calls, the peer sends and the transport answers, the frames sent before a close frame arrive as they were sent.
Partial: each frame is given in one call (`cont`), and its announced length is the number of its bytes (`announced_length_wrong` shows a case where it is not). -/
theorem end_to_end_binary_partial {s : WsQueue.State} (h : Reach s) (hc : Clean s) (hw : ∀ f ∈ framesBC s.w.log, f.cont = false ∧ f.announced = f.size)
    (o o' : Endian.Order) (fromServer sc : Bool) (u : Utf8.State) (rng : Random.Rng) (cs : List Out1)
    (hr : List.Forall₂ Realises cs (framesBC s.w.log)) (hok : ∀ c ∈ cs, c.Ok fromServer) (hb : NoTextSent none (cs.map Out1.frame)) :
    ∃ bytes, wire o fromServer rng cs = some bytes ∧
      ∀ pieces, streamOf pieces = bytes → seen (outsOf o' (!fromServer) sc u pieces) = delivered none (cs.map Out1.frame) :=
  binary_round_trip o o' fromServer sc u rng cs hok
    (sequence_of_legal cs _ hr (fun f hf => (hw f hf).1) none true (.inl rfl) (by simp) (WsQueue.frames_legal_partial h hc)) hb

/-- The same with text; in addition no piece may end inside a character of a final text frame. -/
theorem end_to_end_partial {s : WsQueue.State} (h : Reach s) (hc : Clean s) (hw : ∀ f ∈ framesBC s.w.log, f.cont = false ∧ f.announced = f.size)
    (o o' : Endian.Order) (fromServer sc : Bool) (u : Utf8.State) (rng : Random.Rng) (cs : List Out1)
    (hr : List.Forall₂ Realises cs (framesBC s.w.log)) (hok : ∀ c ∈ cs, c.Ok fromServer) :
    ∃ bytes, wire o fromServer rng cs = some bytes ∧
      ∀ pieces, streamOf pieces = bytes → TextFine (!fromServer) (onClose o' sc) (delivered none (cs.map Out1.frame)) pieces →
        seen (outsOf o' (!fromServer) sc u pieces) = delivered none (cs.map Out1.frame) :=
  round_trip_partial o o' fromServer sc u rng cs hok
    (sequence_of_legal cs _ hr (fun f hf => (hw f hf).1) none true (.inl rfl) (by simp) (WsQueue.frames_legal_partial h hc))

/-- The hypotheses are met: the run `fragmented`, without its text message. -/
def run1 : List WsQueue.Choice := WsQueue.fragmented.take 9
def calls1 : List Out1 :=
  [{ type := .binary, fin := false, hdr := List.replicate 14 0, mem := exMem, saved := toMask [], chain := [(10, 3)] },
   { type := .ping, fin := true, hdr := List.replicate 14 0, mem := exMem, saved := toMask [], chain := [(7, 1)] },
   { type := .continuation, fin := true, hdr := List.replicate 14 0, mem := exMem, saved := toMask [], chain := [(30, 2), (40, 3)] }]
set_option maxRecDepth 20000 in
theorem run1_frames : WsQueue.okRun {} run1 = true ∧ Clean (WsQueue.run {} run1) ∧ framesBC (WsQueue.run {} run1).w.log =
    [⟨.message, false, 2, false, 3, 3⟩, ⟨.ping, false, 9, true, 1, 1⟩, ⟨.message, false, 0, true, 5, 5⟩] := by decide
example : List.Forall₂ Realises calls1 (framesBC (WsQueue.run {} run1).w.log) := by
  rw [run1_frames.2.2]
  refine .cons ⟨rfl, rfl, rfl, rfl⟩ (.cons ⟨rfl, rfl, rfl, rfl⟩ (.cons ⟨rfl, rfl, rfl, rfl⟩ .nil))
example : NoTextSent none (calls1.map Out1.frame) := by simp [calls1, Out1.frame, NoTextSent]
example : ∀ c ∈ calls1, c.Ok false := by
  intro c hc
  simp only [calls1, List.mem_cons, List.not_mem_nil, or_false] at hc
  rcases hc with rfl | rfl | rfl
  · refine ⟨rfl, by simp [Masking.Separate], by simp, by simp [Out1.payload, Masking.chainBytes, Masking.bytesAt], by simp⟩
  · refine ⟨rfl, by simp [Masking.Separate], by simp, by simp [Out1.payload, Masking.chainBytes, Masking.bytesAt], by simp⟩
  · refine ⟨rfl, ?_, by simp, by simp [Out1.payload, Masking.chainBytes, Masking.bytesAt], by simp⟩
    simp only [Masking.Separate, List.pairwise_cons]
    refine ⟨?_, ?_, List.Pairwise.nil⟩ <;> intro q hq <;> simp at hq
    subst hq; intro x; simp; omega

end Cio.WsRoundTrip
