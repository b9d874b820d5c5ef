import Verif.WsRecv.Frames
/-
C22: close frames.
-/
namespace Cio.WsRecv
open Rfc6455 Masking WsSend

/-- Status codes allowed on the wire, RFC 6455 section 7.4 (and the IANA registry for 1007 - 1011). -/
def LegalCode (c : Nat) : Prop := (1000 ≤ c ∧ c ≤ 1003) ∨ (1007 ≤ c ∧ c ≤ 1011) ∨ (3000 ≤ c ∧ c ≤ 4999)
instance (c : Nat) : Decidable (LegalCode c) := by unfold LegalCode; infer_instance

/-- A close body RFC 6455 allows: empty, or a legal status code followed by a reason in UTF-8. -/
def CloseBodyOk (body : List UInt8) : Prop :=
  body = [] ∨ ∃ b0 b1 reason, body = b0 :: b1 :: reason ∧ LegalCode (b0.toNat * 256 + b1.toNat) ∧ Utf8.WellFormed reason

/-- What is to be done with an acceptable close frame: report it; then close if we had started closing, otherwise answer with the same status and
reason (1000 if there was none). -/
def closeAnswer (selfClose : Bool) (body : List UInt8) : List Out :=
  .control 8 body :: if selfClose then [.closed] else
    match body with
    | b0 :: b1 :: reason => [.closeReply (b0.toNat * 256 + b1.toNat) reason]
    | _ => [.closeReply 1000 []]

theorem isInvalid_iff (c : Nat) : isInvalidStatusCode c = true ↔ ¬ LegalCode c := by
  unfold isInvalidStatusCode LegalCode
  split
  · simp; omega
  · split
    · simp; omega
    · split
      · simp; omega
      · simp; omega

theorem status_eq (o : Endian.Order) (b0 b1 : UInt8) (r : List UInt8) :
    Endian.betoh o 2 (Endian.ofMem o ((b0 :: b1 :: r).take 2)) = b0.toNat * 256 + b1.toNat := by
  rw [betoh_ofMem o _ 2 (by simp)]
  simp [beNat]

theorem handleClose_two (sc : Bool) (o : Endian.Order) (a : Nat) (b0 b1 : UInt8) (reason : List UInt8) :
    handleClose sc o a (b0 :: b1 :: reason) =
      if LegalCode (b0.toNat * 256 + b1.toNat) then
        if reason.length = 0 then closeAnswer sc (b0 :: b1 :: reason)
        else if reason.length = 1 then [.ub]
        else if Utf8.run 0 (reason.take (reason.length - 2)) = 0 then closeAnswer sc (b0 :: b1 :: reason)
        else [.fail 1007]
      else [.fail 1002] := by
  unfold handleClose
  have h1 : (b0 :: b1 :: reason).length = reason.length + 2 := rfl
  have h2 : reason.length + 2 ≥ 2 := by omega
  simp only [h1, h2, if_true, true_and, status_eq, isInvalid_iff, Nat.add_sub_cancel]
  rw [if_neg (by omega)]
  by_cases hl : LegalCode (b0.toNat * 256 + b1.toNat)
  · rw [if_neg (not_not_intro hl), if_pos hl]
    by_cases hz : reason.length = 0
    · have : reason = [] := List.eq_nil_of_length_eq_zero hz
      subst this
      simp [closeAnswer]
    · rw [if_neg hz, if_pos (by omega)]
      by_cases h1 : reason.length = 1
      · rw [if_pos h1, if_pos (by omega)]
      · rw [if_neg h1, if_neg (by omega)]
        obtain ⟨s', hc, -⟩ := Utf8.check_spec (Utf8.init ⟨0, 0⟩) (a + 2) (((b0 :: b1 :: reason).drop 2).take (reason.length - 2)) (by decide)
        rw [hc]
        simp only [List.drop_succ_cons, List.drop_zero]
        have : Utf8.run (Utf8.init ⟨0, 0⟩).state (reason.take (reason.length - 2)) = Utf8.run 0 (reason.take (reason.length - 2)) := rfl
        rw [this, show Utf8.ACCEPT = 0 from rfl]
        by_cases hr : Utf8.run 0 (reason.take (reason.length - 2)) = 0
        · rw [if_neg (not_not_intro hr), if_pos hr]
          simp [closeAnswer, show 0 < reason.length by omega]
        · rw [if_pos hr, if_neg hr]
  · rw [if_pos hl, if_neg hl]

theorem ascii_needs_accept : ∀ st ∈ Utf8.V, ∀ n : Fin 128, st ≠ 0 → Utf8.next st (UInt8.ofNat n.val) = 12 := by decide +kernel
theorem ascii_accepts : ∀ n : Fin 128, Utf8.next 0 (UInt8.ofNat n.val) = 0 := by decide +kernel

theorem wf_ascii (r : List UInt8) (x : UInt8) (hx : x.toNat < 128) : Utf8.WellFormed (r ++ [x]) ↔ Utf8.WellFormed r := by
  rw [← Utf8.run_zero_iff, ← Utf8.run_zero_iff, Utf8.run_append]
  have e : x = UInt8.ofNat (⟨x.toNat, hx⟩ : Fin 128).val := by simp
  constructor
  · intro h
    by_cases h0 : Utf8.run 0 r = 0
    · exact h0
    · have := ascii_needs_accept (Utf8.run 0 r) (Utf8.run_mem _ (by decide) _) ⟨x.toNat, hx⟩ h0
      rw [← e] at this
      have h' : Utf8.next (Utf8.run 0 r) x = 0 := h
      rw [this] at h'
      cases h'
  · intro h
    rw [h]
    have := ascii_accepts ⟨x.toNat, hx⟩
    rw [← e] at this
    exact this

/-- C22, full claim: close frames are accepted and answered exactly when the body is allowed, and otherwise the connection fails. -/
def CloseHandled : Prop :=
  ∀ (sc : Bool) (o : Endian.Order) (a : Nat) (body : List UInt8), body.length ≤ 125 →
    (CloseBodyOk body → handleClose sc o a body = closeAnswer sc body) ∧
    (¬ CloseBodyOk body → ∃ s, handleClose sc o a body = [.fail s])

/-- C22: bodies of one byte and illegal status codes make the connection fail with status 1002; a legal status code without reason and an empty
body are accepted and answered. -/
theorem close_status_codes (sc : Bool) (o : Endian.Order) (a : Nat) :
    handleClose sc o a [] = closeAnswer sc [] ∧ (∀ b, handleClose sc o a [b] = [.fail 1002]) ∧
    (∀ b0 b1 reason, ¬ LegalCode (b0.toNat * 256 + b1.toNat) → handleClose sc o a (b0 :: b1 :: reason) = [.fail 1002]) ∧
    ∀ b0 b1, LegalCode (b0.toNat * 256 + b1.toNat) → handleClose sc o a [b0, b1] = closeAnswer sc [b0, b1] := by
  refine ⟨?_, ?_, ?_, ?_⟩
  · simp [handleClose, closeAnswer]
  · intro b; simp [handleClose]
  · intro b0 b1 reason h; rw [handleClose_two, if_neg h]
  · intro b0 b1 h; rw [handleClose_two, if_pos h]; rfl

/-- C22, partial: the claim holds for bodies without reason and for reasons of at least two bytes that end with two ASCII characters.  Missing:
all other reasons; the code subtracts the size of the status code twice from the length of the reason, see below. -/
theorem close_handled_partial (sc : Bool) (o : Endian.Order) (a : Nat) (body : List UInt8)
    (h : body.length ≤ 2 ∨ ∃ pre x y, body = pre ++ [x, y] ∧ 2 ≤ pre.length ∧ x.toNat < 128 ∧ y.toNat < 128) :
    (CloseBodyOk body → handleClose sc o a body = closeAnswer sc body) ∧
    (¬ CloseBodyOk body → ∃ s, handleClose sc o a body = [.fail s]) := by
  have hc := close_status_codes sc o a
  match body, h with
  | [], _ => exact ⟨fun _ => hc.1, fun hn => absurd (.inl rfl) hn⟩
  | [b], _ =>
    refine ⟨?_, fun _ => ⟨_, hc.2.1 b⟩⟩
    rintro (h | ⟨b0, b1, r, h, -⟩) <;> cases h
  | [b0, b1], _ =>
    by_cases hl : LegalCode (b0.toNat * 256 + b1.toNat)
    · exact ⟨fun _ => hc.2.2.2 b0 b1 hl, fun hn => absurd (.inr ⟨b0, b1, [], rfl, hl, Utf8.wf_nil⟩) hn⟩
    · refine ⟨?_, fun _ => ⟨_, hc.2.2.1 b0 b1 [] hl⟩⟩
      rintro (h | ⟨c0, c1, r, h, hl', -⟩)
      · cases h
      · cases h; exact absurd hl' hl
  | b0 :: b1 :: b2 :: rest, h =>
    obtain ⟨pre, x, y, hb, hp, hx, hy⟩ : ∃ pre x y, b0 :: b1 :: b2 :: rest = pre ++ [x, y] ∧ 2 ≤ pre.length ∧ x.toNat < 128 ∧ y.toNat < 128 := by
      rcases h with h | h
      · simp at h
      · exact h
    match pre, hp with
    | p0 :: p1 :: p, _ =>
      rw [List.cons_append, List.cons_append] at hb
      simp only [List.cons.injEq] at hb
      obtain ⟨rfl, rfl, hb⟩ := hb
      rw [hb, handleClose_two]
      have ht : (p ++ [x, y]).take ((p ++ [x, y]).length - 2) = p := by simp
      have hwf : Utf8.WellFormed (p ++ [x, y]) ↔ Utf8.run 0 p = 0 := by
        rw [show p ++ [x, y] = (p ++ [x]) ++ [y] by simp, wf_ascii _ _ hy, wf_ascii _ _ hx, Utf8.run_zero_iff]
      rw [ht, if_neg (show ¬ (p ++ [x, y]).length = 0 by simp), if_neg (show ¬ (p ++ [x, y]).length = 1 by simp)]
      constructor
      · rintro (h | ⟨c0, c1, r, h, hl, hw⟩)
        · cases h
        · cases h
          rw [if_pos hl, if_pos (hwf.mp hw)]
      · intro hn
        by_cases hl : LegalCode (b0.toNat * 256 + b1.toNat)
        · rw [if_pos hl, if_neg]
          · exact ⟨_, rfl⟩
          · intro h
            exact hn (.inr ⟨b0, b1, _, rfl, hl, hwf.mpr h⟩)
        · rw [if_neg hl]; exact ⟨_, rfl⟩

theorem closeAnswer_not_fail (sc : Bool) (body : List UInt8) (c : Nat) : closeAnswer sc body ≠ [.fail c] := by
  unfold closeAnswer; intro h; injection h with h1 _; cases h1

/-- C22, exactly: the bodies for which the claim holds are those without reason, those with an illegal status code, and those whose reason has at least two bytes
and is valid UTF-8 if and only if it is without its last two bytes. -/
theorem close_handled_iff (sc : Bool) (o : Endian.Order) (a : Nat) (body : List UInt8) :
    ((CloseBodyOk body → handleClose sc o a body = closeAnswer sc body) ∧ (¬ CloseBodyOk body → ∃ s, handleClose sc o a body = [.fail s])) ↔
      (body.length ≤ 2 ∨ ∃ b0 b1 reason, body = b0 :: b1 :: reason ∧ (¬ LegalCode (b0.toNat * 256 + b1.toNat) ∨
        (2 ≤ reason.length ∧ (Utf8.WellFormed reason ↔ Utf8.WellFormed (reason.take (reason.length - 2)))))) := by
  by_cases h2 : body.length ≤ 2
  · exact ⟨fun _ => .inl h2, fun _ => close_handled_partial sc o a body (.inl h2)⟩
  · match body, h2 with
    | [], h2 | [_], h2 | [_, _], h2 => exact absurd (by simp) h2
    | b0 :: b1 :: b2 :: rest, _ =>
      generalize hr : b2 :: rest = reason
      have hpos : reason.length ≠ 0 := by rw [← hr]; simp
      rw [handleClose_two]
      have hok : CloseBodyOk (b0 :: b1 :: reason) ↔ LegalCode (b0.toNat * 256 + b1.toNat) ∧ Utf8.WellFormed reason := by
        constructor
        · rintro (h | ⟨c0, c1, r, h, k⟩)
          · cases h
          · cases h; exact k
        · intro h; exact .inr ⟨b0, b1, reason, rfl, h⟩
      have hlen : ¬ (b0 :: b1 :: reason).length ≤ 2 := by rw [List.length_cons, List.length_cons]; omega
      have hrhs : ((b0 :: b1 :: reason).length ≤ 2 ∨ ∃ c0 c1 r, b0 :: b1 :: reason = c0 :: c1 :: r ∧ (¬ LegalCode (c0.toNat * 256 + c1.toNat) ∨
          (2 ≤ r.length ∧ (Utf8.WellFormed r ↔ Utf8.WellFormed (r.take (r.length - 2)))))) ↔
          (¬ LegalCode (b0.toNat * 256 + b1.toNat) ∨ (2 ≤ reason.length ∧ (Utf8.WellFormed reason ↔ Utf8.WellFormed (reason.take (reason.length - 2))))) := by
        constructor
        · rintro (h | ⟨c0, c1, r, h, k⟩)
          · exact absurd h hlen
          · cases h; exact k
        · intro h; exact .inr ⟨b0, b1, reason, rfl, h⟩
      rw [hrhs, hok]
      by_cases hl : LegalCode (b0.toNat * 256 + b1.toNat)
      · rw [if_pos hl, if_neg hpos]
        by_cases h1 : reason.length = 1
        · rw [if_pos h1]
          constructor
          · rintro ⟨k1, k2⟩
            exfalso
            by_cases hw : Utf8.WellFormed reason
            · have := k1 ⟨hl, hw⟩
              unfold closeAnswer at this
              injection this with h1 _; cases h1
            · obtain ⟨s, hs⟩ := k2 (fun h => hw h.2)
              injection hs with h1 _; cases h1
          · rintro (h | h)
            · exact absurd hl h
            · omega
        · rw [if_neg h1]
          by_cases hw : Utf8.WellFormed (reason.take (reason.length - 2))
          · rw [if_pos ((Utf8.run_zero_iff _).mpr hw)]
            constructor
            · rintro ⟨k1, k2⟩
              refine .inr ⟨by omega, fun _ => hw, fun _ => Classical.byContradiction fun hn => ?_⟩
              obtain ⟨s, hs⟩ := k2 (fun h => hn h.2)
              exact closeAnswer_not_fail _ _ _ hs
            · rintro (h | ⟨-, h⟩)
              · exact absurd hl h
              · exact ⟨fun _ => rfl, fun hn => absurd ⟨hl, h.mpr hw⟩ hn⟩
          · rw [if_neg (fun h => hw ((Utf8.run_zero_iff _).mp h))]
            constructor
            · rintro ⟨k1, k2⟩
              refine .inr ⟨by omega, fun h => absurd (k1 ⟨hl, h⟩).symm (closeAnswer_not_fail _ _ _), fun h => absurd h hw⟩
            · rintro (h | ⟨-, h⟩)
              · exact absurd hl h
              · exact ⟨fun hn => absurd (h.mp hn.2) hw, fun _ => ⟨_, rfl⟩⟩
      · rw [if_neg hl]
        exact ⟨fun _ => .inl hl, fun _ => ⟨fun h => absurd h.1 hl, fun _ => ⟨_, rfl⟩⟩⟩

/-- C22 is false of the code.  A reason of one byte makes the check of the reason run with the length 2^64 - 1: undefined behaviour, whatever the
byte is. -/
theorem one_byte_reason_undefined (sc : Bool) (o : Endian.Order) (a : Nat) (b0 b1 r : UInt8) (h : LegalCode (b0.toNat * 256 + b1.toNat)) :
    handleClose sc o a [b0, b1, r] = [.ub] := by rw [handleClose_two, if_pos h]; rfl

/-- C22 is false of the code: reasons of two bytes are accepted whatever they are ... -/
theorem invalid_reason_accepted (sc : Bool) (o : Endian.Order) (a : Nat) (b0 b1 r s : UInt8) (h : LegalCode (b0.toNat * 256 + b1.toNat)) :
    handleClose sc o a [b0, b1, r, s] = closeAnswer sc [b0, b1, r, s] := by rw [handleClose_two, if_pos h]; rfl

/-- ... and a valid reason may be rejected: status 1000, reason U+20AC. -/
theorem valid_reason_rejected (sc : Bool) (o : Endian.Order) (a : Nat) :
    CloseBodyOk [3, 232, 0xE2, 0x82, 0xAC] ∧ handleClose sc o a [3, 232, 0xE2, 0x82, 0xAC] = [.fail 1007] := by
  refine ⟨.inr ⟨3, 232, _, rfl, by decide, ⟨[0x20AC], by simp [Utf8.IsScalar], by decide⟩⟩, ?_⟩
  rw [handleClose_two, if_pos (by decide)]
  rw [if_neg (by decide), if_neg (by decide), if_neg (by decide +kernel)]

theorem close_not_handled : ¬ CloseHandled := by
  intro h
  have h1 := valid_reason_rejected true .little 0
  have := (h true .little 0 [3, 232, 0xE2, 0x82, 0xAC] (by simp)).1 h1.1
  rw [h1.2] at this
  simp [closeAnswer] at this

/-- Non-vacuity of `close_handled_partial`: status 1001, reason "bye". -/
example : ∃ pre x y, ([3, 233, 98, 121, 101] : List UInt8) = pre ++ [x, y] ∧ 2 ≤ pre.length ∧ x.toNat < 128 ∧ y.toNat < 128 :=
  ⟨[3, 233, 98], 121, 101, rfl, by simp, by decide, by decide⟩
example : CloseBodyOk [3, 233, 98, 121, 101] ∧ ¬ LegalCode 1005 ∧ LegalCode 4999 ∧ ¬ LegalCode 5000 :=
  ⟨.inr ⟨3, 233, [98, 121, 101], rfl, by decide, ⟨[98, 121, 101], by simp [Utf8.IsScalar], by decide⟩⟩, by decide, by decide, by decide⟩

/-- C22 for the whole receive path: a close frame that arrives after any legal frames is handled as `handleClose` does, and nothing is read after it. -/
theorem close_frame_ends_reading (o : Endian.Order) (server sc : Bool) (u : Utf8.State) (fs : List Frame) (hl : Legal server 0 fs)
    (f : Frame) (he : f.Encoded server) (hop : f.opcode = 8) (hfin : f.fin = true) (hlen : f.payload.length ≤ 125)
    (rest : List UInt8) (pieces : List (Nat × List UInt8)) (hp : streamOf pieces = fs.flatMap Frame.wire ++ (f.wire ++ rest))
    (ht : NoTextFrames 0 fs ∨ TextOk server (onClose o sc) pieces) :
    seen (outsOf o server sc u pieces) = shownAll 0 fs ++ seen (handleClose sc o 0 f.payload) := by
  have e := receive_frames (onClose o sc) server 0 fs (f.wire ++ rest) hl
  have e2 : receive server (onClose o sc) (afterAll 0 fs) (f.wire ++ rest) = seen (handleClose sc o 0 f.payload) := by
    unfold Frame.wire
    rw [List.append_assoc, receive_header _ server _ f.header _ f.fin f.opcode f.mask f.payload.length he.1 he.2]
    · have ht : (unmask f.mask f.payload ++ rest).take f.payload.length = unmask f.mask f.payload := by
        rw [← unmask_length f.mask f.payload, List.take_left]
      have hc : decide (f.payload.length ≤ (unmask f.mask f.payload ++ rest).length) = true := by
        rw [List.length_append, unmask_length]; simp
      unfold body
      simp only [ht, hc, unmask_unmask, hop, Bool.true_eq_false, if_false, if_true, Nat.le_refl, ge_iff_le]
      rfl
    · intro b0 e1 e3 e2
      unfold badFirst
      rw [← e1, ← e3, e2]
      simp [hfin, hop]
    · intro _; exact hlen
  rw [e2, ← hp] at e
  rcases ht with ht | ht
  · rw [binary_received_as_specified o server sc u pieces ?_, e]
    rw [e]
    intro x hx
    rcases List.mem_append.mp hx with hx | hx
    · exact shownAll_noText server 0 fs hl ht x hx
    · rw [handleClose_other] at hx
      obtain ⟨y, -, rfl⟩ := List.mem_map.mp hx
      simp
  · rw [received_as_specified_partial o server sc u pieces ht, e]

end Cio.WsRecv
