import Verif.WsRecv.Frames
/-
The receiving half of websocket.c on platforms whose `size_t` has fewer than 64 bits (most targets of the Zephyr port and 32 bit builds of the others).  `S` is `SIZE_MAX`; the C
standard demands at least 65535.  Only `get_length64` differs: all other lengths are at most 65535 or come from memory objects.  (The comparison in `read_payload`, websocket.c 603, is
between two `size_t` and never true.)
-/
namespace Cio.WsRecv
open Rfc6455 Masking WsSend

/-- `get_length64`, websocket.c 667-689. -/
def getLength64 (S : Nat) (o : Endian.Order) (rx : Rx) (bs : List UInt8) : Rx × List Out :=
  let field := Endian.betoh o bs.length (Endian.ofMem o bs)
  if field > S then failed rx 1009
  else getMaskOrPayload o { rx with remaining := field, frameLength := field }

/-- One run of the registered read handler. -/
def stepW (S : Nat) (o : Endian.Order) (rx : Rx) (buf : List UInt8) : Option (Rx × List UInt8 × List Out) :=
  match rx.cont with
  | .len64 => if buf.length ≥ 8 then let (rx, outs) := getLength64 S o rx (buf.take 8); some (rx, buf.drop 8, outs) else none
  | _ => step o rx buf

/-- As `pump`. -/
def pumpW (S : Nat) (o : Endian.Order) : Nat → Rx → List UInt8 → Rx × List UInt8 × List Out
  | 0, rx, buf => (rx, buf, [])
  | fuel + 1, rx, buf =>
    match stepW S o rx buf with
    | none => (rx, buf, [])
    | some (rx, buf', outs) =>
      let (rx, buf'', outs') := pumpW S o fuel { rx with addr := rx.addr + (buf.length - buf'.length) } buf'
      (rx, buf'', outs ++ outs')

/-- As `run`. -/
def runW (S : Nat) (o : Endian.Order) : Rx → List UInt8 → List (Nat × List UInt8) → Rx × List UInt8 × List Out
  | rx, buf, [] => (rx, buf, [])
  | rx, buf, (a, p) :: ps =>
    let (rx, buf, outs) := pumpW S o ((buf ++ p).length + 1) { rx with addr := a } (buf ++ p)
    let (rx, buf, outs') := runW S o rx buf ps
    (rx, buf, outs ++ outs')

/-- What the receiver does with the stream arriving in these pieces. -/
def outsOfW (S : Nat) (o : Endian.Order) (server selfClose : Bool) (u : Utf8.State) (pieces : List (Nat × List UInt8)) : List Out :=
  (runW S o (start server selfClose u) [] pieces).2.2

section
variable (S : Nat) (o : Endian.Order) (sc : Bool)

/-- The frame being read fits. -/
def Small (rx : Rx) : Prop := rx.cont = .mask ∨ rx.cont = .payload → rx.frameLength ≤ S
/-- No chunk of a frame that does not fit. -/
def SmallOuts (outs : List Out) : Prop := ∀ n d lc lf b, .chunk n d lc lf b ∈ outs → n ≤ S

theorem SmallOuts.append {a b : List Out} (ha : SmallOuts S a) (hb : SmallOuts S b) : SmallOuts S (a ++ b) := by
  intro n d lc lf x h
  rcases List.mem_append.mp h with h | h
  · exact ha _ _ _ _ _ h
  · exact hb _ _ _ _ _ h

theorem handleClose_small (a : Nat) (data : List UInt8) : SmallOuts S (handleClose sc o a data) := by
  intro n d lc lf x h
  have e := handleClose_other sc o a data
  exfalso
  have : ∀ l : List Out, seen l = l.map Seen.other → .chunk n d lc lf x ∈ l → False := by
    intro l hl hm
    have hlen := congrArg List.length hl
    -- every element contributes what it is
    induction l with
    | nil => cases hm
    | cons y l ih =>
      have hs : seen (y :: l) = seen1 y ++ seen l := rfl
      rw [hs, List.map_cons] at hl
      cases y with
      | chunk n' d' lc' lf' x' =>
        simp only [seen1] at hl
        cases d' with
        | cons b d' => simp at hl
        | nil =>
          cases lc' with
          | true => simp at hl
          | false =>
            simp only [List.map_nil, Bool.false_eq_true, if_false, List.nil_append] at hl
            -- then the rest is too short
            have hcount : ∀ l : List Out, (seen l).countP (fun s => match s with | .other _ => true | _ => false) ≤ l.length := by
              intro l
              induction l with
              | nil => exact Nat.le_refl _
              | cons z l ih =>
                have : seen (z :: l) = seen1 z ++ seen l := rfl
                rw [this, List.countP_append, List.length_cons]
                have : (seen1 z).countP (fun s => match s with | .other _ => true | _ => false) ≤ 1 := by
                  cases z with
                  | chunk n d lc lf x =>
                    simp only [seen1, List.countP_append]
                    have h1 : (d.map (fun b => Seen.byte b n lf x)).countP (fun s => match s with | .other _ => true | _ => false) = 0 := by
                      rw [List.countP_eq_zero]; intro y hy; rw [List.mem_map] at hy; obtain ⟨b, -, rfl⟩ := hy; simp
                    rw [h1]
                    cases lc <;> simp
                  | _ => simp [seen1]
                omega
            have h1 := hcount l
            rw [hl, List.countP_cons] at h1
            have h2 : (l.map Seen.other).countP (fun s => match s with | .other _ => true | _ => false) = l.length := by
              rw [List.countP_map]
              exact List.countP_eq_length.mpr (fun _ _ => rfl)
            rw [h2] at h1
            simp at h1
      | _ =>
        simp only [seen1, List.singleton_append, List.cons.injEq, true_and] at hl
        exact ih hl (by simpa using hm) (congrArg List.length hl)
  exact this _ e h

theorem handleFrame_small (rx : Rx) (data : List UInt8) (h : rx.frameLength ≤ S) : Small S (handleFrame o rx data).1 ∧ SmallOuts S (handleFrame o rx data).2 := by
  unfold handleFrame
  simp only
  generalize (if rx.isServer = true then unmaskAt rx.addr rx.mask data else data) = d
  split
  · refine ⟨fun _ => h, ?_⟩
    intro n d lc lf b hm
    simp only [handleBinary, List.mem_singleton, Out.chunk.injEq] at hm
    rw [hm.1]; exact h
  · split
    · unfold handleText
      split
      · exact ⟨(fun q => by rcases q with q | q <;> cases q), fun n d lc lf b hm => by simp at hm⟩
      · simp only
        split
        · exact ⟨(fun q => by rcases q with q | q <;> cases q), fun n d lc lf b hm => by simp [failed] at hm⟩
        · refine ⟨fun _ => h, ?_⟩
          intro n d lc lf b hm
          simp only [List.mem_singleton, Out.chunk.injEq] at hm
          rw [hm.1]; exact h
    · split
      · unfold handlePing
        split
        · exact ⟨(fun q => by rcases q with q | q <;> cases q), fun n d lc lf b hm => by simp at hm⟩
        · exact ⟨(fun q => by rcases q with q | q <;> cases q), fun n d lc lf b hm => by simp at hm⟩
      · split
        · exact ⟨(fun q => by rcases q with q | q <;> cases q), fun n d lc lf b hm => by simp [handlePong] at hm⟩
        · split
          · exact ⟨(fun q => by rcases q with q | q <;> cases q), handleClose_small S o rx.selfClose rx.addr d⟩
          · exact ⟨(fun q => by rcases q with q | q <;> cases q), fun n d lc lf b hm => by simp [failed] at hm⟩

theorem readPayload_small (rx : Rx) (h : rx.frameLength ≤ S) : Small S (readPayload o rx).1 ∧ SmallOuts S (readPayload o rx).2 := by
  unfold readPayload
  split
  · exact ⟨fun _ => h, fun n d lc lf b hm => by cases hm⟩
  · exact handleFrame_small S o rx [] h

theorem getMaskOrPayload_small (rx : Rx) (h : rx.frameLength ≤ S) : Small S (getMaskOrPayload o rx).1 ∧ SmallOuts S (getMaskOrPayload o rx).2 := by
  unfold getMaskOrPayload
  split
  · exact ⟨fun _ => h, fun n d lc lf b hm => by cases hm⟩
  · exact readPayload_small S o rx h

theorem beNat_lt (bs : List UInt8) : beNat bs < 256 ^ bs.length := by
  have : ∀ (bs : List UInt8) acc, bs.foldl (fun acc b => acc * 256 + b.toNat) acc < (acc + 1) * 256 ^ bs.length := by
    intro bs
    induction bs with
    | nil => intro acc; simp
    | cons b bs ih =>
      intro acc
      rw [List.foldl_cons, List.length_cons, Nat.pow_succ]
      have h1 := ih (acc * 256 + b.toNat)
      have h2 : acc * 256 + b.toNat + 1 ≤ (acc + 1) * 256 := by have := b.toNat_lt; omega
      calc _ < _ := h1
        _ ≤ (acc + 1) * 256 * 256 ^ bs.length := Nat.mul_le_mul_right _ h2
        _ = _ := by rw [Nat.mul_assoc, Nat.mul_comm 256]
  have := this bs 0
  simpa [beNat] using this

theorem step_len64 (rx : Rx) (buf : List UInt8) (hc : rx.cont = .len64) :
    step o rx buf = if buf.length ≥ 8 then some ((getLength o rx (buf.take 8)).1, buf.drop 8, (getLength o rx (buf.take 8)).2) else none := by
  unfold step
  split <;> first | rfl | (rename_i h; rw [hc] at h; cases h)

/-- Either a step is that of the 64 bit platform, or it refuses a frame that does not fit. -/
theorem stepW_cases (rx : Rx) (buf : List UInt8) : stepW S o rx buf = step o rx buf ∨
    (rx.cont = .len64 ∧ 8 ≤ buf.length ∧ S < beNat (buf.take 8) ∧ stepW S o rx buf = some ({ rx with cont := .stopped }, buf.drop 8, [.fail 1009])) := by
  unfold stepW
  split
  · rename_i hc
    by_cases hb : buf.length ≥ 8
    · rw [if_pos hb]
      unfold getLength64
      have hlen : (buf.take 8).length = 8 := by rw [List.length_take]; omega
      simp only [betoh_ofMem o (buf.take 8) _ rfl]
      by_cases hS : beNat (buf.take 8) > S
      · right
        rw [if_pos hS]
        exact ⟨hc, hb, hS, rfl⟩
      · left
        rw [if_neg hS, step_len64 o rx buf hc, if_pos hb]
        unfold getLength
        simp only [betoh_ofMem o (buf.take 8) _ rfl]
    · left
      rw [if_neg hb, step_len64 o rx buf hc, if_neg hb]
  · exact .inl rfl

theorem stepW_small (hS : 65535 ≤ S) (rx rx' : Rx) (buf buf' : List UInt8) (outs : List Out) (h : Small S rx) (hs : stepW S o rx buf = some (rx', buf', outs)) :
    Small S rx' ∧ SmallOuts S outs := by
  have hnone : ∀ c : Cont, c ≠ .mask → c ≠ .payload → ∀ r : Rx, Small S { r with cont := c } := fun c h1 h2 r q => by
    rcases q with q | q
    · exact absurd q h1
    · exact absurd q h2
  have hfail : ∀ (r : Rx) (n : Nat), Small S (failed r n).1 ∧ SmallOuts S (failed r n).2 := fun r n =>
    ⟨hnone .stopped (by simp) (by simp) r, fun n d lc lf b hm => by simp [failed] at hm⟩
  unfold stepW at hs
  split at hs
  · split at hs
    · simp only [Option.some.injEq, Prod.mk.injEq] at hs
      obtain ⟨rfl, rfl, rfl⟩ := hs
      unfold getLength64
      simp only
      split
      · exact hfail _ _
      · exact getMaskOrPayload_small S o _ (by simp only; omega)
    · cases hs
  · rename_i hne
    unfold step at hs
    split at hs
    · split at hs
      · simp only [Option.some.injEq, Prod.mk.injEq] at hs
        obtain ⟨rfl, rfl, rfl⟩ := hs
        unfold getHeader
        simp only
        split
        · exact hfail _ _
        · split
          · exact hfail _ _
          · exact ⟨hnone .firstLen (by simp) (by simp) _, fun n d lc lf b hm => by cases hm⟩
      · cases hs
    · split at hs
      · simp only [Option.some.injEq, Prod.mk.injEq] at hs
        obtain ⟨rfl, rfl, rfl⟩ := hs
        unfold getFirstLength
        simp only
        split
        · exact hfail _ _
        · split
          · exact getMaskOrPayload_small S o _ (by simp only; omega)
          · split
            · exact hfail _ _
            · split
              · exact ⟨hnone .len16 (by simp) (by simp) _, fun n d lc lf b hm => by cases hm⟩
              · exact ⟨hnone .len64 (by simp) (by simp) _, fun n d lc lf b hm => by cases hm⟩
      · cases hs
    · split at hs
      · rename_i hl
        simp only [Option.some.injEq, Prod.mk.injEq] at hs
        obtain ⟨rfl, rfl, rfl⟩ := hs
        unfold getLength
        simp only [betoh_ofMem o (buf.take 2) _ rfl]
        refine getMaskOrPayload_small S o _ ?_
        have h1 := beNat_lt (buf.take 2)
        have h2 : (buf.take 2).length = 2 := by rw [List.length_take]; omega
        rw [h2] at h1
        simp only
        omega
      · cases hs
    · rename_i hc; exact absurd hc hne
    · rename_i hc
      split at hs
      · simp only [Option.some.injEq, Prod.mk.injEq] at hs
        obtain ⟨rfl, rfl, rfl⟩ := hs
        exact readPayload_small S o _ (h (.inl hc))
      · cases hs
    · rename_i hc
      have hp : ∀ b, getPayload o rx buf = b → Small S b.1 ∧ SmallOuts S b.2.2 := by
        intro b hb
        subst hb
        unfold getPayload
        simp only
        exact handleFrame_small S o _ _ (by split <;> exact h (.inr hc))
      split at hs
      · split at hs
        · injection hs with hs
          have := hp _ hs
          exact this
        · cases hs
      · split at hs
        · injection hs with hs
          have := hp _ hs
          exact this
        · cases hs
    · cases hs

end
end Cio.WsRecv
