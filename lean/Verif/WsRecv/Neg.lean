import Verif.WsRecv.Close
/-
Where the receiver departs from RFC 6455, and concrete cases that meet the hypotheses of the theorems on incoming frames.
-/
namespace Cio.WsRecv
open Rfc6455 Masking WsSend

/-- A client receives the text message "ä" in one piece: delivered. -/
theorem text_in_one_piece :
    outsOf .little false false ⟨0, 0⟩ [(0, [0x81, 2, 0xC3, 0xA4])] = [.chunk 2 [0xC3, 0xA4] true true false] := by decide +kernel

/-- The same bytes, but the second byte of the character arrives later: rejected as ill-formed. -/
theorem text_in_two_pieces :
    outsOf .little false false ⟨0, 0⟩ [(0, [0x81, 2, 0xC3]), (0, [0xA4])] = [.fail 1007] := by decide +kernel

/-- C18/C20 in full is false of the code: `handle_text_frame` wants the text to be complete with the last chunk read of the final frame, even if that
chunk is not the end of the frame.  So what is seen depends on how the transport cuts the stream. -/
theorem segmentation_matters : ¬ ∀ (o : Endian.Order) (server sc : Bool) (u : Utf8.State) (p q : List (Nat × List UInt8)), streamOf p = streamOf q →
    seen (outsOf o server sc u p) = seen (outsOf o server sc u q) := by
  intro h
  have := h .little false false ⟨0, 0⟩ [(0, [0x81, 2, 0xC3, 0xA4])] [(0, [0x81, 2, 0xC3]), (0, [0xA4])] rfl
  rw [text_in_one_piece, text_in_two_pieces] at this
  exact absurd this (by decide)

/-- C19 in full is false of the code: a length that is not encoded minimally is accepted (16 bit for one byte, 64 bit for one byte). -/
theorem nonminimal_length_accepted :
    outsOf .little false false ⟨0, 0⟩ [(0, [0x82, 126, 0, 1, 0x41])] = [.chunk 1 [0x41] true true true] ∧
    outsOf .little false false ⟨0, 0⟩ [(0, [0x82, 127, 0, 0, 0, 0, 0, 0, 0, 1, 0x41])] = [.chunk 1 [0x41] true true true] := by decide +kernel

/-- ... and so is a 64 bit length with the most significant bit set. -/
theorem huge_length_accepted :
    outsOf .little false false ⟨0, 0⟩ [(0, [0x82, 127, 0x80, 0, 0, 0, 0, 0, 0, 0, 0x41])] = [.chunk (2 ^ 63) [0x41] false true true] := by
  decide +kernel

/-! Concrete cases. -/

/-- A client's text message "äb" in two fragments with a ping between them, masked with two different keys. -/
def exFrames : List Frame :=
  [⟨[0x01, 0x82, 1, 2, 3, 4], false, 1, some [1, 2, 3, 4], [0xC3, 0xA4]⟩,
   ⟨[0x89, 0x83, 9, 8, 7, 6], true, 9, some [9, 8, 7, 6], [1, 2, 3]⟩,
   ⟨[0x80, 0x81, 5, 5, 5, 5], true, 0, some [5, 5, 5, 5], [0x62]⟩]

theorem short_announces (b0 b1 k0 k1 k2 k3 : UInt8) (h : b0.toNat / 16 % 8 = 0) (hm : b1.toNat ≥ 128) (hl : b1.toNat % 128 < 126) :
    Announces [b0, b1, k0, k1, k2, k3] (decide (b0.toNat ≥ 128)) (b0.toNat % 16) (some [k0, k1, k2, k3]) (b1.toNat % 128) := by
  refine ⟨?_, ?_, by simp⟩
  · intro tail
    have h1 : ¬ b1.toNat % 128 = 126 := by omega
    have h2 : ¬ b1.toNat % 128 = 127 := by omega
    simp [parseHeader, h, hm, hl, h1, h2]
  · unfold MinimalLength; simp only; omega

/-- Non-vacuity of `Legal`. -/
theorem exFrames_legal : Legal true 0 exFrames := by
  refine ⟨⟨short_announces _ _ _ _ _ _ (by decide) (by decide) (by decide), rfl⟩, ?_,
    ⟨short_announces _ _ _ _ _ _ (by decide) (by decide) (by decide), rfl⟩, ?_,
    ⟨short_announces _ _ _ _ _ _ (by decide) (by decide) (by decide), rfl⟩, ?_, trivial⟩
  · exact .inr (.inl ⟨.inl rfl, rfl⟩)
  · exact .inl ⟨.inl rfl, rfl, by simp⟩
  · exact .inr (.inr ⟨rfl, .inl rfl⟩)

/-- What is to be seen of it. -/
theorem exFrames_shown : shownAll 0 exFrames = [.byte 0xC3 2 false false, .byte 0xA4 2 false false, .frameEnd 2 false false,
    .other (.control 9 [1, 2, 3]), .other (.pong [1, 2, 3]), .byte 0x62 1 true false, .frameEnd 1 true false] := by decide

/-- Non-vacuity of `TextOk`: the frames of the example in one piece. -/
theorem exFrames_textOk : TextOk true (onClose .little false) [(4, exFrames.flatMap Frame.wire)] := by
  have e : receive true (onClose .little false) 0 (streamOf [(4, exFrames.flatMap Frame.wire)]) = shownAll 0 exFrames := by
    have := receive_frames (onClose .little false) true 0 exFrames [] exFrames_legal
    rw [receive_nil, List.append_nil, List.append_nil] at this
    simpa [streamOf] using this
  have hw : Utf8.WellFormed [0xC3, 0xA4, 0x62] := ⟨[0xE4, 0x62], by simp [Utf8.IsScalar], by decide⟩
  refine ⟨?_, ?_, ?_⟩
  · rw [e, exFrames_shown]
    intro m hm
    simp [texts] at hm
    exact hm ▸ hw
  · rw [e, exFrames_shown]
    exact ⟨[], by simpa [pend] using Utf8.wf_nil⟩
  · intro k _ _ _
    cases k with
    | zero =>
      simp only [List.take_zero]
      rw [show streamOf [] = [] from rfl, receive_nil]
      exact Utf8.wf_nil
    | succ k =>
      rw [List.take_of_length_le (by simp), e, exFrames_shown]
      simpa [pend] using Utf8.wf_nil

/-- So the whole of `frames_delivered_partial` applies to it. -/
example : seen (outsOf .little true false ⟨0, 0⟩ [(4, exFrames.flatMap Frame.wire)]) = shownAll 0 exFrames :=
  frames_delivered_partial _ _ _ _ _ exFrames_legal _ (by simp [streamOf]) exFrames_textOk

/-- A server's text message "äb" in two fragments, the first one ending inside the character. -/
def exCut : List Frame :=
  [⟨[0x01, 1], false, 1, none, [0xC3]⟩, ⟨[0x80, 2], true, 0, none, [0xA4, 0x62]⟩]

theorem exCut_legal : Legal false 0 exCut := by
  have e : ∀ (b0 b1 : UInt8), b0.toNat / 16 % 8 = 0 → b1.toNat < 126 → Announces [b0, b1] (decide (b0.toNat ≥ 128)) (b0.toNat % 16) none b1.toNat := by
    intro b0 b1 h hl
    refine ⟨?_, ?_, by simp⟩
    · intro tail
      have h0 : b1.toNat % 128 = b1.toNat := Nat.mod_eq_of_lt (by omega)
      have h1 : ¬ b1.toNat = 126 := by omega
      have h2 : ¬ b1.toNat = 127 := by omega
      have h3 : ¬ 128 ≤ b1.toNat := by omega
      simp [parseHeader, h, h0, hl, h1, h2, h3]
    · unfold MinimalLength; simp only; omega
  exact ⟨⟨e _ _ (by decide) (by decide), rfl⟩, .inr (.inl ⟨.inl rfl, rfl⟩), ⟨e _ _ (by decide) (by decide), rfl⟩, .inr (.inr ⟨rfl, .inl rfl⟩), trivial⟩

/-- Non-vacuity of `TextOk` where characters are cut: this stream in pieces of one byte, one of which ends inside the character of the first
frame, satisfies it. -/
theorem exCut_textOk : TextOk false (onClose .little false) [(0, [0x01]), (0, [1]), (0, [0xC3]), (0, [0x80]), (0, [2]), (0, [0xA4]), (0, [0x62])] := by
  rw [← received_as_specified_iff .little false false ⟨0, 0⟩]
  have := receive_frames (onClose .little false) false 0 exCut [] exCut_legal
  rw [receive_nil, List.append_nil, List.append_nil] at this
  have e : receive false (onClose .little false) 0 (streamOf [(0, [0x01]), (0, [1]), (0, [0xC3]), (0, [0x80]), (0, [2]), (0, [0xA4]), (0, [0x62])]) = shownAll 0 exCut := this
  rw [e]
  decide +kernel

/-- Non-vacuity of `Malformed`: the reserved bit RSV1, a fragmented ping, a client that does not mask. -/
example : Malformed true 0 0xC1 0x80 ∧ Malformed true 0 0x09 0x80 ∧ Malformed true 0 0x81 0x01 ∧ ¬ Malformed true 0 0x81 0x81 := by
  unfold Malformed; decide

end Cio.WsRecv
