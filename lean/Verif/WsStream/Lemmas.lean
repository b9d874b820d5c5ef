import Verif.WsStream.Model
/-
What the handlers of websocket.c need from the stream and what they leave.
-/
namespace Cio.WsStream
open BufferedRead (Job UAct World Call Satisfied)
open WsRecv (Rx Out pump)

theorem handleFrame_addr (o : Endian.Order) (rx : Rx) (d : List UInt8) : (WsRecv.handleFrame o rx d).1.addr = rx.addr := by
  unfold WsRecv.handleFrame
  simp only
  generalize (if rx.isServer = true then WsRecv.unmaskAt rx.addr rx.mask d else d) = d'
  split
  · simp [WsRecv.handleBinary, WsRecv.readMessage]
  split
  · unfold WsRecv.handleText
    split
    · rfl
    · simp only
      split <;> simp [WsRecv.failed, WsRecv.readMessage]
  split
  · unfold WsRecv.handlePing; split <;> rfl
  split
  · rfl
  split <;> rfl

theorem readPayload_addr (o : Endian.Order) (rx : Rx) : (WsRecv.readPayload o rx).1.addr = rx.addr := by
  unfold WsRecv.readPayload
  split
  · rfl
  · exact handleFrame_addr o rx []

theorem getMaskOrPayload_addr (o : Endian.Order) (rx : Rx) : (WsRecv.getMaskOrPayload o rx).1.addr = rx.addr := by
  unfold WsRecv.getMaskOrPayload
  split
  · rfl
  · exact readPayload_addr o rx

theorem handleFin_addr (rx rx' : Rx) (b : UInt8) (h : WsRecv.handleFin rx b = some rx') : rx'.addr = rx.addr := by
  unfold WsRecv.handleFin at h
  simp only at h
  repeat' split at h
  all_goals first
    | cases h; done
    | (simp only [Option.some.injEq] at h; subst h; rfl)

theorem getHeader_addr (rx : Rx) (b : UInt8) : (WsRecv.getHeader rx b).1.addr = rx.addr := by
  unfold WsRecv.getHeader
  simp only
  split
  · rfl
  · split
    · rfl
    · next h => have := handleFin_addr _ _ _ h; exact this

theorem getFirstLength_addr (o : Endian.Order) (rx : Rx) (b : UInt8) : (WsRecv.getFirstLength o rx b).1.addr = rx.addr := by
  unfold WsRecv.getFirstLength
  simp only
  split
  · rfl
  split
  · exact getMaskOrPayload_addr o _
  split
  · rfl
  split <;> rfl

/-- A handler leaves the read pointer to the stream and consumes from the front. -/
theorem step_rest (o : Endian.Order) (rx rx' : Rx) (buf buf' : List UInt8) (outs : List Out) (h : WsRecv.step o rx buf = some (rx', buf', outs)) :
    rx'.addr = rx.addr ∧ ∃ k, k ≤ buf.length ∧ buf' = buf.drop k := by
  unfold WsRecv.step at h
  split at h
  · split at h
    · next b rest =>
      simp only [Option.some.injEq, Prod.mk.injEq] at h
      obtain ⟨rfl, rfl, rfl⟩ := h
      exact ⟨getHeader_addr rx b, 1, by simp, rfl⟩
    · cases h
  · split at h
    · next b rest =>
      simp only [Option.some.injEq, Prod.mk.injEq] at h
      obtain ⟨rfl, rfl, rfl⟩ := h
      exact ⟨getFirstLength_addr o rx b, 1, by simp, rfl⟩
    · cases h
  · split at h
    · next hl =>
      simp only [Option.some.injEq, Prod.mk.injEq] at h
      obtain ⟨rfl, rfl, rfl⟩ := h
      exact ⟨getMaskOrPayload_addr o _, 2, hl, rfl⟩
    · cases h
  · split at h
    · next hl =>
      simp only [Option.some.injEq, Prod.mk.injEq] at h
      obtain ⟨rfl, rfl, rfl⟩ := h
      exact ⟨getMaskOrPayload_addr o _, 8, hl, rfl⟩
    · cases h
  · split at h
    · next hl =>
      simp only [Option.some.injEq, Prod.mk.injEq] at h
      obtain ⟨rfl, rfl, rfl⟩ := h
      exact ⟨readPayload_addr o _, 4, hl, rfl⟩
    · cases h
  · split at h
    · next hc =>
      split at h
      · next hl =>
        simp only [WsRecv.getPayload, hc, if_true, Option.some.injEq, Prod.mk.injEq] at h
        obtain ⟨rfl, rfl, rfl⟩ := h
        exact ⟨handleFrame_addr o _ _, rx.remaining, hl, rfl⟩
      · cases h
    · next hc =>
      split at h
      · simp only [WsRecv.getPayload, hc, Bool.false_eq_true, if_false, Option.some.injEq, Prod.mk.injEq] at h
        obtain ⟨rfl, rfl, rfl⟩ := h
        exact ⟨handleFrame_addr o _ _, min rx.remaining buf.length, Nat.min_le_right _ _, rfl⟩
      · cases h
  · cases h

/-- The read registered at the stream is the one the handler needs. -/
theorem step_none_iff (o : Endian.Order) (rx : Rx) (a : Nat) (buf : List UInt8) (hs : rx.cont ≠ .stopped) :
    WsRecv.step o { rx with addr := a } buf = none ↔ ¬ Satisfied buf (jobOf rx) := by
  unfold WsRecv.step jobOf
  have hc : ({ rx with addr := a } : Rx).cont = rx.cont := rfl
  rw [hc]
  cases h : rx.cont with
  | header => cases buf <;> simp [Satisfied]
  | firstLen => cases buf <;> simp [Satisfied]
  | len16 => simp only [Satisfied, ge_iff_le]; split <;> simp <;> omega
  | len64 => simp only [Satisfied, ge_iff_le]; split <;> simp <;> omega
  | mask => simp only [Satisfied, ge_iff_le]; split <;> simp <;> omega
  | stopped => exact absurd h hs
  | payload =>
    simp only
    by_cases hk : WsRecv.isControl rx.opcode = true
    · rw [if_pos hk, if_pos hk]; simp only [Satisfied, ge_iff_le]; split <;> simp <;> omega
    · rw [if_neg hk, if_neg hk]
      simp only [Satisfied, ge_iff_le]
      split
      · next h1 => simp; intro e; subst e; simp at h1
      · next h1 => simp; cases buf with | nil => rfl | cons => simp at h1

/-- What holds between two invocations of handlers. -/
def Ok (sc : Bool) (rx : Rx) : Prop := rx.cont ≠ .stopped → ∃ p, WsRecv.Inv sc rx p

theorem Ok.addr {sc : Bool} {rx : Rx} (h : Ok sc rx) (a : Nat) : Ok sc { rx with addr := a } := by
  intro hs
  obtain ⟨p, hp⟩ := h hs
  exact ⟨p, WsRecv.inv_addr a hp⟩

theorem Ok.step {o : Endian.Order} {sc : Bool} {rx rx' : Rx} {buf buf' : List UInt8} {outs : List Out} (h : Ok sc rx)
    (hs : WsRecv.step o rx buf = some (rx', buf', outs)) : Ok sc rx' ∧ buf'.length < buf.length := by
  have hc : rx.cont ≠ .stopped := by
    intro hc; rw [WsRecv.step_stopped o rx buf hc] at hs; cases hs
  obtain ⟨p, hp⟩ := h hc
  obtain ⟨h1, h2⟩ := WsRecv.step_spec o sc rx rx' p buf buf' outs hp hs
  refine ⟨?_, h1⟩
  intro hn
  cases h2 with
  | good _ inv _ _ => exact ⟨_, inv⟩
  | bad q d n fin he hstop => exact absurd hstop hn

/-- The reads are never larger than a control frame. -/
theorem job_small {sc : Bool} {rx : Rx} (h : Ok sc rx) (n : Nat) (hn : jobOf rx = .atLeast n) : n ≤ 125 := by
  unfold jobOf at hn
  cases hc : rx.cont with
  | payload =>
    simp only [hc] at hn
    split at hn
    · next hk =>
      obtain ⟨p, hp⟩ := h (by rw [hc]; simp)
      cases hn
      exact hp.ctl (.inl hc) (by simpa [WsRecv.isControl] using hk)
    · cases hn
  | _ => simp only [hc] at hn; cases hn; omega

theorem job_not_until (rx : Rx) (d : List UInt8) : jobOf rx ≠ .until d := by
  unfold jobOf
  split <;> try simp
  split <;> simp

theorem pump_none (o : Endian.Order) (f : Nat) (rx : Rx) (buf : List UInt8) (h : WsRecv.step o rx buf = none) : pump o f rx buf = (rx, buf, []) := by
  cases f with
  | zero => rfl
  | succ f => rw [pump, h]

/-- More rounds than bytes make no difference. -/
theorem pump_fuel (o : Endian.Order) (sc : Bool) (f g : Nat) (rx : Rx) (buf : List UInt8) (h : Ok sc rx) (hf : buf.length < f) (hg : buf.length < g) :
    pump o f rx buf = pump o g rx buf := by
  induction f generalizing g rx buf with
  | zero => omega
  | succ f ih =>
    cases g with
    | zero => omega
    | succ g =>
      rw [pump, pump]
      cases hs : WsRecv.step o rx buf with
      | none => rfl
      | some x =>
        obtain ⟨rx1, buf1, outs⟩ := x
        obtain ⟨h1, h2⟩ := h.step hs
        simp only
        rw [ih g _ buf1 (h1.addr _) (by omega) (by omega)]

theorem pump_some (o : Endian.Order) (sc : Bool) (rx rx' : Rx) (buf buf' : List UInt8) (outs : List Out) (h : Ok sc rx)
    (hs : WsRecv.step o rx buf = some (rx', buf', outs)) :
    pump o (buf.length + 1) rx buf =
      ((pump o (buf'.length + 1) { rx' with addr := rx.addr + (buf.length - buf'.length) } buf').1,
       (pump o (buf'.length + 1) { rx' with addr := rx.addr + (buf.length - buf'.length) } buf').2.1,
       outs ++ (pump o (buf'.length + 1) { rx' with addr := rx.addr + (buf.length - buf'.length) } buf').2.2) := by
  obtain ⟨h1, h2⟩ := h.step hs
  obtain ⟨ha, _⟩ := step_rest o rx rx' buf buf' outs hs
  rw [pump, hs]
  simp only [ha]
  rw [pump_fuel o sc buf.length (buf'.length + 1) _ buf' (h1.addr _) (by omega) (by omega)]

/-- One more piece. -/
theorem run_snoc (o : Endian.Order) (rx : Rx) (buf : List UInt8) (ps : List (Nat × List UInt8)) (a : Nat) (bs : List UInt8) :
    WsRecv.run o rx buf (ps ++ [(a, bs)]) =
      (let r := WsRecv.run o rx buf ps
       let q := pump o ((r.2.1 ++ bs).length + 1) { r.1 with addr := a } (r.2.1 ++ bs)
       (q.1, q.2.1, r.2.2 ++ q.2.2)) := by
  induction ps generalizing rx buf with
  | nil => simp [WsRecv.run]
  | cons q ps ih =>
    obtain ⟨b, q⟩ := q
    simp only [List.cons_append, WsRecv.run]
    rw [ih]
    simp

end Cio.WsStream
