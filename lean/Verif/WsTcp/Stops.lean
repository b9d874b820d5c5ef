import Verif.WsTcp.Props
/-
A receiver that has stopped has shown why.
-/
namespace Cio.WsTcp
open WsStream (Env handler shown)
open WsRecv (Rx Out Seen seen seen1)
open WsRoundTrip (delivered)

/-- After these a receiver does not go on: an error, or the peer's close frame. -/
def final : Out → Bool
  | .fail _ => true
  | .ub => true
  | .control 8 _ => true
  | _ => false

theorem final_cons {x : Out} {l : List Out} (h : final x = true) : ∃ y ∈ x :: l, final y = true := ⟨x, List.mem_cons_self, h⟩

theorem handleClose_final (sc : Bool) (o : Endian.Order) (a : Nat) (data : List UInt8) : ∃ x ∈ WsRecv.handleClose sc o a data, final x = true := by
  unfold WsRecv.handleClose
  dsimp only
  by_cases h1 : data.length = 1
  · rw [if_pos h1]; exact final_cons rfl
  rw [if_neg h1]
  generalize (if data.length ≥ 2 then Endian.betoh o 2 (Endian.ofMem o (data.take 2)) else 1000) = st
  by_cases h2 : data.length ≥ 2 ∧ WsRecv.isInvalidStatusCode st = true
  · rw [if_pos h2]; exact final_cons rfl
  rw [if_neg h2]
  generalize (if data.length ≥ 2 then data.length - 2 else data.length) = length
  by_cases h3 : length > 0
  · rw [if_pos h3]
    by_cases h4 : length < 2
    · rw [if_pos h4]; exact final_cons rfl
    · rw [if_neg h4]
      cases Utf8.check (Utf8.init ⟨0, 0⟩) (a + 2) ((data.drop 2).take (length - 2)) with
      | none => exact final_cons rfl
      | some x =>
        obtain ⟨status, u⟩ := x
        dsimp only
        by_cases h5 : status ≠ Utf8.ACCEPT
        · rw [if_pos h5]; exact final_cons rfl
        · rw [if_neg h5]; exact final_cons (x := .control 8 data) rfl
  · rw [if_neg h3]; exact final_cons (x := .control 8 data) rfl

theorem readMessage_goes (rx : Rx) : (WsRecv.readMessage rx).cont ≠ .stopped := by
  unfold WsRecv.readMessage
  dsimp only
  split <;> exact fun g => nomatch g

theorem handleFrame_final (o : Endian.Order) (rx : Rx) (data : List UInt8) (h : (WsRecv.handleFrame o rx data).1.cont = .stopped) :
    ∃ x ∈ (WsRecv.handleFrame o rx data).2, final x = true := by
  unfold WsRecv.handleFrame at h ⊢
  dsimp only at h ⊢
  generalize (if rx.isServer = true then WsRecv.unmaskAt rx.addr rx.mask data else data) = d at h ⊢
  by_cases h2 : rx.opcode = 2
  · rw [if_pos h2] at h
    exact absurd h (readMessage_goes _)
  rw [if_neg h2] at h ⊢
  by_cases h1 : rx.opcode = 1
  · rw [if_pos h1] at h ⊢
    unfold WsRecv.handleText at h ⊢
    cases hu : Utf8.check rx.utf8 rx.addr d with
    | none => exact final_cons rfl
    | some x =>
      obtain ⟨status, u⟩ := x
      rw [hu] at h
      dsimp only at h ⊢
      split at h
      · next hg => rw [if_pos hg]; exact final_cons rfl
      · exact absurd h (readMessage_goes _)
  rw [if_neg h1] at h ⊢
  by_cases h9 : rx.opcode = 9
  · rw [if_pos h9] at h ⊢
    unfold WsRecv.handlePing at h ⊢
    split at h
    · next hg => rw [if_pos hg]; exact final_cons rfl
    · cases h
  rw [if_neg h9] at h ⊢
  by_cases h10 : rx.opcode = 10
  · rw [if_pos h10] at h
    cases h
  rw [if_neg h10] at h ⊢
  by_cases h8 : rx.opcode = 8
  · rw [if_pos h8]
    exact handleClose_final _ _ _ _
  · rw [if_neg h8]
    exact final_cons rfl

theorem readPayload_final (o : Endian.Order) (rx : Rx) (h : (WsRecv.readPayload o rx).1.cont = .stopped) : ∃ x ∈ (WsRecv.readPayload o rx).2, final x = true := by
  unfold WsRecv.readPayload at h ⊢
  split at h
  · cases h
  · next hg => rw [if_neg hg]; exact handleFrame_final o rx [] h

theorem getMaskOrPayload_final (o : Endian.Order) (rx : Rx) (h : (WsRecv.getMaskOrPayload o rx).1.cont = .stopped) : ∃ x ∈ (WsRecv.getMaskOrPayload o rx).2, final x = true := by
  unfold WsRecv.getMaskOrPayload at h ⊢
  split at h
  · cases h
  · next hg => rw [if_neg hg]; exact readPayload_final o rx h

theorem step_final (o : Endian.Order) {rx rx' : Rx} {buf rest : List UInt8} {outs : List Out} (h : WsRecv.step o rx buf = some (rx', rest, outs)) (hs : rx'.cont = .stopped) :
    ∃ x ∈ outs, final x = true := by
  unfold WsRecv.step at h
  cases hc : rx.cont <;> rw [hc] at h <;> dsimp only at h
  · cases buf with
    | nil => cases h
    | cons b rest =>
      dsimp only at h
      injection h with h
      rw [Prod.mk.injEq, Prod.mk.injEq] at h
      obtain ⟨rfl, -, rfl⟩ := h
      unfold WsRecv.getHeader at hs ⊢
      dsimp only at hs ⊢
      split at hs
      · next hg => rw [if_pos hg]; exact final_cons rfl
      · next hg =>
        rw [if_neg hg]
        cases hf : WsRecv.handleFin { rx with fin := b &&& 0x80 == 0x80 } b with
        | none => exact final_cons rfl
        | some rx1 => rw [hf] at hs; cases hs
  · cases buf with
    | nil => cases h
    | cons b rest =>
      dsimp only at h
      injection h with h
      rw [Prod.mk.injEq, Prod.mk.injEq] at h
      obtain ⟨rfl, -, rfl⟩ := h
      unfold WsRecv.getFirstLength at hs ⊢
      dsimp only at hs ⊢
      split at hs
      · next hg => rw [if_pos hg]; exact final_cons rfl
      next hg =>
      rw [if_neg hg]
      split at hs
      · next hg => rw [if_pos hg]; exact getMaskOrPayload_final o _ hs
      next hg =>
      rw [if_neg hg]
      split at hs
      · next hg => rw [if_pos hg]; exact final_cons rfl
      next hg =>
      split at hs <;> cases hs
  · split at h
    · injection h with h
      rw [Prod.mk.injEq, Prod.mk.injEq] at h
      obtain ⟨rfl, -, rfl⟩ := h
      exact getMaskOrPayload_final o _ hs
    · cases h
  · split at h
    · injection h with h
      rw [Prod.mk.injEq, Prod.mk.injEq] at h
      obtain ⟨rfl, -, rfl⟩ := h
      exact getMaskOrPayload_final o _ hs
    · cases h
  · split at h
    · injection h with h
      rw [Prod.mk.injEq, Prod.mk.injEq] at h
      obtain ⟨rfl, -, rfl⟩ := h
      exact readPayload_final o _ hs
    · cases h
  · have key : ∀ buf, WsRecv.getPayload o rx buf = (rx', rest, outs) → ∃ x ∈ outs, final x = true := by
      intro buf h
      unfold WsRecv.getPayload at h
      dsimp only at h
      rw [Prod.mk.injEq, Prod.mk.injEq] at h
      obtain ⟨rfl, -, rfl⟩ := h
      exact handleFrame_final o _ _ hs
    split at h
    · split at h
      · injection h with h; exact key _ h
      · cases h
    · split at h
      · injection h with h; exact key _ h
      · cases h
  · cases h

/-- A WebSocket that has stopped reading has shown an error or the peer's close frame. -/
theorem stopped_shown (e : Env) (w : BufferedRead.World) (h : (e.sess w).rx.cont = .stopped) : ∃ x ∈ shown e w, final x = true := by
  unfold WsStream.shown
  unfold WsStream.Env.sess WsStream.sess at h ⊢
  have key : ∀ (cs : List BufferedRead.Call) (s : WsStream.Sess), (s.rx.cont = .stopped → ∃ x ∈ s.outs, final x = true) →
      (cs.foldl (WsStream.react e.o e.base) s).rx.cont = .stopped → ∃ x ∈ (cs.foldl (WsStream.react e.o e.base) s).outs, final x = true := by
    intro cs
    induction cs with
    | nil => intro s hs h; exact hs h
    | cons c cs ih =>
      intro s hs h
      refine ih _ (fun hc => ?_) h
      unfold WsStream.react at hc ⊢
      split at hc
      · next hg => rw [if_pos hg]; exact ⟨_, List.mem_append_right _ (List.mem_singleton.2 rfl), rfl⟩
      · next hg =>
        rw [if_neg hg]
        cases hst : WsRecv.step e.o { s.rx with addr := e.base + c.offset } c.view with
        | none => rw [hst] at hc; exact hs hc
        | some x =>
          obtain ⟨rx', rest, outs⟩ := x
          rw [hst] at hc
          obtain ⟨x, hx, hf⟩ := step_final e.o hst hc
          exact ⟨x, List.mem_append_right _ hx, hf⟩
  exact key _ _ (fun g => nomatch g) h

theorem final_seen {l : List Out} {x : Out} (hx : x ∈ l) (hf : final x = true) : Seen.other x ∈ seen l := by
  unfold WsRecv.seen
  refine List.mem_flatMap.2 ⟨x, hx, ?_⟩
  cases x <;> first | (cases hf; done) | exact List.mem_singleton.2 rfl

theorem delivered_not_final (op : Option WsSend.FrameType) (fs : List (WsSend.FrameType × Bool × List UInt8)) (x : Out) (hx : Seen.other x ∈ delivered op fs) : final x = false := by
  induction fs generalizing op with
  | nil => cases hx
  | cons f fs ih =>
    obtain ⟨t, fin, p⟩ := f
    have hds : ∀ b, Seen.other x ∉ WsRoundTrip.dataSeen b fin p := by
      intro b g
      unfold WsRoundTrip.dataSeen at g
      rcases List.mem_append.1 g with g | g
      · obtain ⟨_, -, g⟩ := List.mem_map.1 g; cases g
      · rw [List.mem_singleton] at g; cases g
    cases t <;> unfold delivered at hx
    · rcases List.mem_append.1 hx with g | g
      · exact absurd g (hds _)
      · exact ih _ g
    · rcases List.mem_append.1 hx with g | g
      · exact absurd g (hds _)
      · exact ih _ g
    · rcases List.mem_append.1 hx with g | g
      · exact absurd g (hds _)
      · exact ih _ g
    · cases hx
    · rcases List.mem_cons.1 hx with g | g
      · injection g with g; subst g; rfl
      · rcases List.mem_cons.1 g with g | g
        · injection g with g; subst g; rfl
        · exact ih _ g
    · rcases List.mem_cons.1 hx with g | g
      · injection g with g; subst g; rfl
      · exact ih _ g

end Cio.WsTcp
