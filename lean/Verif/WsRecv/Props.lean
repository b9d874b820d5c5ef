import Verif.WsRecv.Run
/-
Property theorems for incoming frames (C18, C19, C20, C21).
-/
namespace Cio.WsRecv
open Rfc6455 Masking WsSend

/-- What the receiver does with the stream arriving in these pieces (address of the unread bytes, bytes that arrived). -/
def outsOf (o : Endian.Order) (server selfClose : Bool) (u : Utf8.State) (pieces : List (Nat × List UInt8)) : List Out :=
  (run o (start server selfClose u) [] pieces).2.2

/-- The whole stream, and its first `k` pieces. -/
def streamOf (pieces : List (Nat × List UInt8)) : List UInt8 := (pieces.map Prod.snd).flatten

theorem outcome (o : Endian.Order) (server sc : Bool) (u : Utf8.State) (pieces : List (Nat × List UInt8)) :
    Outcome [] (receive server (onClose o sc) 0) (pieces.map Prod.snd) (outsOf o server sc u pieces) := by
  have := run_spec o sc (start server sc u) [] [] pieces
    ⟨rfl, by simp [start], rfl, fun h => (by cases h), fun h => (by rcases h with h | h <;> cases h), fun h => (by rcases h with h | h <;> cases h), by decide⟩ rfl
  exact this

/-- C20 (soundness): every text message handed to the user completely is well-formed UTF-8, whatever the peer sends and however it arrives. -/
theorem text_messages_wellformed (o : Endian.Order) (server sc : Bool) (u : Utf8.State) (pieces : List (Nat × List UInt8)) :
    ∀ m ∈ texts [] (seen (outsOf o server sc u pieces)), Utf8.WellFormed m := by
  cases outcome o server sc u pieces with
  | good h wf => exact wf
  | bad q d n fin he wf =>
    rw [he, seen_append, texts_append]
    intro m hm
    rcases List.mem_append.mp hm with hm | hm
    · exact wf m hm
    · cases hm

/-- C20: a stream with an ill-formed text message is rejected with status 1007. -/
theorem illformed_text_rejected (o : Endian.Order) (server sc : Bool) (u : Utf8.State) (pieces : List (Nat × List UInt8)) (m : List UInt8)
    (hm : m ∈ texts [] (receive server (onClose o sc) 0 (streamOf pieces))) (hbad : ¬ Utf8.WellFormed m) :
    ∃ q, outsOf o server sc u pieces = q ++ [.fail 1007] := by
  cases outcome o server sc u pieces with
  | good h wf =>
    rw [h] at wf
    exact absurd (wf m hm) hbad
  | bad q d n fin he => exact ⟨q, he⟩

theorem texts_or_pend (p : List UInt8) (x : List Seen) : (∃ more, p ++ more ∈ texts p x) ∨ ∃ more, pend p x = p ++ more := by
  induction x generalizing p with
  | nil => exact .inr ⟨[], by simp [pend]⟩
  | cons a x ih =>
    match a with
    | .byte b _ _ false =>
      rcases ih (p ++ [b]) with ⟨more, h⟩ | ⟨more, h⟩
      · exact .inl ⟨b :: more, by simpa [texts] using h⟩
      · exact .inr ⟨b :: more, by simpa [pend] using h⟩
    | .frameEnd _ true false => exact .inl ⟨[], by simp [texts]⟩
    | .byte _ _ _ true => exact ih p
    | .frameEnd _ false false => exact ih p
    | .frameEnd _ true true => exact ih p
    | .frameEnd _ false true => exact ih p
    | .other _ => exact ih p

/-- All text messages of the stream are well-formed, as far as they go, and no piece ends inside a character in a final text frame (a piece that ends in
the payload of such a frame is one after which the last thing to be seen is a text byte marked as belonging to the last frame of its message). -/
structure TextOk (server : Bool) (oc : List UInt8 → List Seen) (pieces : List (Nat × List UInt8)) : Prop where
  complete : ∀ m ∈ texts [] (receive server oc 0 (streamOf pieces)), Utf8.WellFormed m
  pending : ∃ suffix, Utf8.WellFormed (pend [] (receive server oc 0 (streamOf pieces)) ++ suffix)
  uncut : ∀ k b n, (receive server oc 0 (streamOf (pieces.take k))).getLast? = some (.byte b n true false) →
    Utf8.WellFormed (pend [] (receive server oc 0 (streamOf (pieces.take k))))

/-- C18, C20: the user and the peer see exactly what an RFC 6455 receiver makes of the stream as a whole: the cuts between the pieces do not matter.
Partial: the final frames of text messages have to be cut between characters (see `segmentation_matters` for what happens otherwise). -/
theorem received_as_specified_partial (o : Endian.Order) (server sc : Bool) (u : Utf8.State) (pieces : List (Nat × List UInt8))
    (ht : TextOk server (onClose o sc) pieces) :
    seen (outsOf o server sc u pieces) = receive server (onClose o sc) 0 (streamOf pieces) := by
  cases outcome o server sc u pieces with
  | good h wf => exact h
  | bad q d n fin he wf hshow why =>
    exfalso
    rcases why with w | ⟨hf, w, hx⟩
    · obtain ⟨x, hx⟩ := hshow
      have e1 : pend [] (seen q ++ d.map (fun b => Seen.byte b n fin false)) = pend [] (seen q) ++ d := by rw [pend_append, pend_bytes]
      have hc := ht.complete
      have hp := ht.pending
      have hx' : receive server (onClose o sc) 0 (streamOf pieces) = seen q ++ d.map (fun b => Seen.byte b n fin false) ++ x := hx
      rw [hx'] at hc hp
      rw [texts_append, e1] at hc
      rw [pend_append, e1] at hp
      rcases texts_or_pend (pend [] (seen q) ++ d) x with ⟨more, h⟩ | ⟨more, h⟩
      · exact w more (hc _ (List.mem_append_right _ h))
      · obtain ⟨suf, hs⟩ := hp
        rw [h, List.append_assoc] at hs
        exact w _ hs
    · rcases hx with ⟨x, hx⟩ | ⟨hd, k, hk⟩
      · have hc := ht.complete
        have hx' : receive server (onClose o sc) 0 (streamOf pieces) = seen q ++ d.map (fun b => Seen.byte b n fin false) ++ Seen.frameEnd n fin false :: x := hx
        rw [hx', texts_append, pend_append, pend_bytes, hf] at hc
        exact w (hc _ (List.mem_append_right _ (by simp [texts])))
      · have hk' : receive server (onClose o sc) 0 (streamOf (pieces.take k)) = seen q ++ d.map (fun b => Seen.byte b n fin false) := by
          unfold streamOf; rw [List.map_take]; exact hk
        obtain ⟨d', b, rfl⟩ := List.eq_nil_or_concat d |>.resolve_left hd
        have hu := ht.uncut k b n (by rw [hk', hf]; simp)
        rw [hk', pend_append, pend_bytes] at hu
        exact w hu

/-- The condition of `received_as_specified_partial` cannot be weakened: the user and the peer see what an RFC 6455 receiver makes of the stream if and only if
the text is well-formed as far as it goes and no piece ends inside a character of a final text frame. -/
theorem received_as_specified_iff (o : Endian.Order) (server sc : Bool) (u : Utf8.State) (pieces : List (Nat × List UInt8)) :
    seen (outsOf o server sc u pieces) = receive server (onClose o sc) 0 (streamOf pieces) ↔ TextOk server (onClose o sc) pieces := by
  refine ⟨fun he => ?_, received_as_specified_partial o server sc u pieces⟩
  cases outcome o server sc u pieces with
  | good h wf live cut =>
    rw [he] at wf live
    refine ⟨wf, live, fun k b n hl => ?_⟩
    have e : streamOf (pieces.take k) = ((pieces.map Prod.snd).take k).flatten := by unfold streamOf; rw [List.map_take]
    rw [e] at hl ⊢
    exact cut k b n hl
  | bad q d n fin hq wf hshow why ne =>
    exfalso
    rw [hq, seen_append] at he
    rcases ne with ne | ⟨x, hx⟩
    · obtain ⟨x, hx⟩ := hshow
      have hx' : receive server (onClose o sc) 0 (streamOf pieces) = seen q ++ d.map (fun b => Seen.byte b n fin false) ++ x := hx
      rw [hx', List.append_assoc] at he
      have := List.append_cancel_left he
      cases d with
      | nil => exact ne rfl
      | cons b d => injection this with h1 h2; cases h1
    · have hx' : receive server (onClose o sc) 0 (streamOf pieces) = seen q ++ Seen.frameEnd n fin false :: x := hx
      rw [hx'] at he
      have := List.append_cancel_left he
      injection this with h1 h2; cases h1

/-- No text is received: no byte of a text message, no end of a text frame. -/
def NoText (l : List Seen) : Prop := ∀ x ∈ l, (∀ b n f, x ≠ .byte b n f false) ∧ ∀ n f, x ≠ .frameEnd n f false

theorem noText_pend (l : List Seen) (h : NoText l) (p : List UInt8) : pend p l = p ∧ texts p l = [] := by
  induction l with
  | nil => exact ⟨rfl, rfl⟩
  | cons a l ih =>
    have ih := ih (fun x hx => h x (List.mem_cons_of_mem _ hx))
    have ha := h a List.mem_cons_self
    match a, ha with
    | .byte b n f false, ha => exact absurd rfl (ha.1 b n f)
    | .frameEnd n f false, ha => exact absurd rfl (ha.2 n f)
    | .byte _ _ _ true, _ => exact ih
    | .frameEnd _ true true, _ => exact ih
    | .frameEnd _ false true, _ => exact ih
    | .other _, _ => exact ih

/-- C18 in full for streams without text: however the stream is cut into pieces, everything is delivered as specified. -/
theorem binary_received_as_specified (o : Endian.Order) (server sc : Bool) (u : Utf8.State) (pieces : List (Nat × List UInt8))
    (ht : NoText (receive server (onClose o sc) 0 (streamOf pieces))) :
    seen (outsOf o server sc u pieces) = receive server (onClose o sc) 0 (streamOf pieces) := by
  cases outcome o server sc u pieces with
  | good h wf => exact h
  | bad q d n fin he wf hshow why =>
    exfalso
    obtain ⟨x, hx⟩ := hshow
    have hx' : receive server (onClose o sc) 0 (streamOf pieces) = seen q ++ d.map (fun b => Seen.byte b n fin false) ++ x := hx
    rw [hx'] at ht
    have hd : d = [] := by
      cases d with
      | nil => rfl
      | cons b d => exact absurd rfl ((ht (.byte b n fin false) (by simp)).1 b n fin)
    subst hd
    have hq : pend [] (seen q) = [] := (noText_pend _ (fun y hy => ht y (by simp [hy])) []).1
    rw [hq] at why
    rcases why with w | ⟨-, w, -⟩
    · exact w [] Utf8.wf_nil
    · exact w Utf8.wf_nil

end Cio.WsRecv
