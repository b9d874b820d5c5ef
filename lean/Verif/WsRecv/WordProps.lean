import Verif.WsRecv.Word
/-
C95: frames that are too long for the `size_t` of the platform are refused, all others are received as on a 64 bit platform.
-/
namespace Cio.WsRecv
open Rfc6455 Masking WsSend

section
variable (S : Nat) (o : Endian.Order) (sc : Bool)

/-- The receiver refused a frame; `E` is what was to be seen of the stream, as a function of the bytes that have not arrived. -/
def Refused (E : List UInt8 → List Seen) (outs : List Out) : Prop :=
  ∃ pre rx buf, outs = pre ++ [.fail 1009] ∧ SmallOuts S pre ∧ rx.cont = .len64 ∧ rx.opcode < 8 ∧ 8 ≤ buf.length ∧ S < beNat (buf.take 8) ∧
    ∀ fut, seen pre ++ expect (onClose o sc) rx (buf ++ fut) = E fut

theorem smallOuts_nil : SmallOuts S [] := fun _ _ _ _ _ h => by cases h

theorem pumpW_spec (hS : 65535 ≤ S) (fuel : Nat) (rx : Rx) (p buf : List UInt8) (hi : Inv sc rx p) (hm : Small S rx) :
    (pumpW S o fuel rx buf = pump o fuel rx buf ∧ Small S (pump o fuel rx buf).1 ∧ SmallOuts S (pump o fuel rx buf).2.2) ∨
    ((pumpW S o fuel rx buf).1.cont = .stopped ∧ Refused S o sc (fun fut => expect (onClose o sc) rx (buf ++ fut)) (pumpW S o fuel rx buf).2.2) := by
  induction fuel generalizing rx p buf with
  | zero => exact .inl ⟨rfl, hm, smallOuts_nil S⟩
  | succ fuel ih =>
    rcases stepW_cases S o rx buf with hs | ⟨h1, h2, h3, h4⟩
    · rw [pumpW, pump, hs]
      cases hst : step o rx buf with
      | none => exact .inl ⟨rfl, hm, smallOuts_nil S⟩
      | some r =>
        obtain ⟨rx1, buf1, outs⟩ := r
        obtain ⟨hm1, ho1⟩ := stepW_small S o hS rx rx1 buf buf1 outs hm (by rw [hs, hst])
        obtain ⟨hlen, hres⟩ := step_spec o sc rx rx1 p buf buf1 outs hi hst
        dsimp only
        generalize hrx2 : ({ rx1 with addr := rx1.addr + (buf.length - buf1.length) } : Rx) = rx2
        have hm2 : Small S rx2 := by subst hrx2; exact hm1
        have hc2 : rx2.cont = rx1.cont := by subst hrx2; rfl
        cases hres with
        | bad q d n fin he hstop =>
          left
          have e1 : pump o fuel rx2 buf1 = (rx2, buf1, []) := pump_stopped o fuel rx2 buf1 (by rw [hc2]; exact hstop)
          have e2 : pumpW S o fuel rx2 buf1 = (rx2, buf1, []) := by
            cases fuel with
            | zero => rfl
            | succ fuel =>
              rw [pumpW]
              have : stepW S o rx2 buf1 = none := by
                rcases stepW_cases S o rx2 buf1 with h | ⟨h, -⟩
                · rw [h]; exact step_stopped o _ _ (by rw [hc2]; exact hstop)
                · rw [hc2, hstop] at h; cases h
              rw [this]
          rw [e1, e2]
          exact ⟨rfl, hm2, by simpa using ho1⟩
        | good h inv wf =>
          have inv2 : Inv sc rx2 (pend p (seen outs)) := by subst hrx2; exact inv_addr _ inv
          rcases ih rx2 _ buf1 inv2 hm2 with ⟨e, k1, k2⟩ | ⟨k0, pre, rx3, buf3, e, k1, k2, k3, k4, k5, k6⟩
          · left
            rw [e]
            exact ⟨rfl, k1, .append S ho1 k2⟩
          · right
            refine ⟨k0, outs ++ pre, rx3, buf3, by rw [e, List.append_assoc], .append S ho1 k1, k2, k3, k4, k5, fun fut => ?_⟩
            rw [seen_append, List.append_assoc, k6]
            have := h fut
            subst hrx2
            exact this
    · right
      rw [pumpW, h4]
      dsimp only
      have e2 : pumpW S o fuel { rx with cont := .stopped, addr := rx.addr + (buf.length - (buf.drop 8).length) } (buf.drop 8) = ({ rx with cont := .stopped, addr := rx.addr + (buf.length - (buf.drop 8).length) }, buf.drop 8, []) := by
        cases fuel with
        | zero => rfl
        | succ fuel => rw [pumpW]; rfl
      rw [e2]
      exact ⟨rfl, [], rx, buf, rfl, smallOuts_nil S, h1, hi.len (.inr h1), h2, h3, fun _ => rfl⟩

/-- The final state, if nothing was refused. -/
def Ended (E : List UInt8 → List Seen) (rx : Rx) (buf : List UInt8) (outs : List Out) : Prop :=
  step o rx buf = none ∧ Small S rx ∧ SmallOuts S outs ∧ ((∀ fut, seen outs ++ expect (onClose o sc) rx (buf ++ fut) = E fut) ∨ ∃ q, outs = q ++ [.fail 1007])

theorem runW_stopped (rx : Rx) (buf : List UInt8) (ps : List (Nat × List UInt8)) (h : rx.cont = .stopped) : runW S o rx buf ps = run o rx buf ps ∧ (runW S o rx buf ps).2.2 = [] ∧
    (runW S o rx buf ps).1.cont = .stopped := by
  induction ps generalizing rx buf with
  | nil => exact ⟨rfl, rfl, h⟩
  | cons q ps ih =>
    obtain ⟨a, q⟩ := q
    have e : pumpW S o ((buf ++ q).length + 1) { rx with addr := a } (buf ++ q) = ({ rx with addr := a }, buf ++ q, []) := by
      rw [pumpW]
      have : stepW S o { rx with addr := a } (buf ++ q) = none := by
        rcases stepW_cases S o { rx with addr := a } (buf ++ q) with hc | ⟨hc, -⟩
        · rw [hc]; exact step_stopped o _ _ h
        · have hc : rx.cont = .len64 := hc
          rw [h] at hc; cases hc
      rw [this]
    rw [runW, e, run, pump_stopped o _ { rx with addr := a } _ h]
    obtain ⟨h1, h2, h3⟩ := ih { rx with addr := a } (buf ++ q) h
    dsimp only
    rw [h1]
    rw [h1] at h2 h3
    exact ⟨rfl, h2, h3⟩

theorem runW_spec (hS : 65535 ≤ S) (rx : Rx) (p buf : List UInt8) (ps : List (Nat × List UInt8)) (hi : Inv sc rx p) (hm : Small S rx) (hb : step o rx buf = none) :
    (runW S o rx buf ps = run o rx buf ps ∧
      Ended S o sc (fun fut => expect (onClose o sc) rx (buf ++ ((ps.map Prod.snd).flatten ++ fut))) (run o rx buf ps).1 (run o rx buf ps).2.1 (run o rx buf ps).2.2) ∨
    Refused S o sc (fun fut => expect (onClose o sc) rx (buf ++ ((ps.map Prod.snd).flatten ++ fut))) (runW S o rx buf ps).2.2 := by
  induction ps generalizing rx p buf with
  | nil => exact .inl ⟨rfl, hb, hm, smallOuts_nil S, .inl (fun fut => rfl)⟩
  | cons q ps ih =>
    obtain ⟨a, q⟩ := q
    have hps := pump_spec o sc ((buf ++ q).length + 1) { rx with addr := a } p (buf ++ q) (inv_addr a hi) (by omega)
    have hpw := pumpW_spec S o sc hS ((buf ++ q).length + 1) { rx with addr := a } p (buf ++ q) (inv_addr a hi) hm
    rw [runW, run]
    rcases hpw with ⟨e, hm1, ho1⟩ | ⟨k0, pre, rx3, buf3, e, k1, k2, k3, k4, k5, k6⟩
    · rw [e]
      generalize hpm : pump o ((buf ++ q).length + 1) { rx with addr := a } (buf ++ q) = pm at *
      obtain ⟨rx1, buf1, outs⟩ := pm
      obtain ⟨hres, hnone⟩ := hps
      dsimp only at hres hnone hm1 ho1 ⊢
      have ea : ∀ s, expect (onClose o sc) { rx with addr := a } s = expect (onClose o sc) rx s := fun _ => rfl
      simp only [ea] at hres
      cases hres with
      | bad q' d n fin he hstop =>
        left
        obtain ⟨h1, h2, h3⟩ := runW_stopped S o rx1 buf1 ps hstop
        rw [h1] at h2 h3 ⊢
        refine ⟨rfl, step_stopped o _ _ h3, fun c => ?_, ?_, .inr ⟨q', ?_⟩⟩
        · rw [h3] at c; rcases c with c | c <;> cases c
        · rw [h2, List.append_nil]; exact ho1
        · rw [h2, List.append_nil]; exact he
      | good h inv wf =>
        rcases ih rx1 _ buf1 inv hm1 hnone with ⟨e1, g1, g2, g3, g4⟩ | ⟨pre, rx3, buf3, e3, k1, k2, k3, k4, k5, k6⟩
        · left
          rw [e1]
          refine ⟨rfl, g1, g2, .append S ho1 g3, ?_⟩
          rcases g4 with g4 | ⟨q', g4⟩
          · left
            intro fut
            rw [seen_append, List.append_assoc, g4, h]
            simp
          · right
            exact ⟨outs ++ q', by rw [g4, List.append_assoc]⟩
        · right
          refine ⟨outs ++ pre, rx3, buf3, by rw [e3, List.append_assoc], .append S ho1 k1, k2, k3, k4, k5, fun fut => ?_⟩
          rw [seen_append, List.append_assoc, k6, h]
          simp
    · right
      generalize hpm : pumpW S o ((buf ++ q).length + 1) { rx with addr := a } (buf ++ q) = pm at *
      obtain ⟨rx1, buf1, outs⟩ := pm
      dsimp only at e k0 ⊢
      obtain ⟨-, h2, -⟩ := runW_stopped S o rx1 buf1 ps k0
      rw [h2, List.append_nil]
      refine ⟨pre, rx3, buf3 ++ (ps.map Prod.snd).flatten, e, k1, k2, k3, ?_, ?_, fun fut => ?_⟩
      · rw [List.length_append]; omega
      · rw [List.take_append_of_le_length k4]; exact k5
      · rw [List.append_assoc, k6]
        have ea : ∀ s, expect (onClose o sc) { rx with addr := a } s = expect (onClose o sc) rx s := fun _ => rfl
        simp only [ea, List.map_cons, List.flatten_cons, List.append_assoc]

/-! ### What is to be seen of a stream that goes on with junk -/

/-- A byte of a frame that does not fit. -/
def Long (x : Seen) (n : Nat) : Prop := n > S ∧ ∃ b f bi, x = .byte b n f bi

/-- Nothing but `c`. -/
def Junk (c : UInt8) (l : List UInt8) : Prop := ∀ x ∈ l, x = c

theorem Junk.drop {c : UInt8} {l : List UInt8} (h : Junk c l) (n : Nat) : Junk c (l.drop n) := fun x hx => h x (List.mem_of_mem_drop hx)

theorem junk_behind {c : UInt8} {buf fut : List UInt8} {n : Nat} (h : Junk c fut) (hb : buf.length ≤ n) : Junk c ((buf ++ fut).drop n) := by
  rw [List.drop_append, List.drop_eq_nil_of_le hb, List.nil_append]
  exact h.drop _

theorem receive_junk {c : UInt8} {l : List UInt8} (oc : List UInt8 → List Seen) (h : Junk c l) (hc : c.toNat / 16 % 8 ≠ 0) (srv : Bool) (frag : Nat) :
    receive srv oc frag l = [] ∨ receive srv oc frag l = [.other (.fail 1002)] := by
  cases l with
  | nil => exact .inl (receive_nil oc srv frag)
  | cons b l =>
    right
    refine receive_bad oc srv frag b l ?_
    rw [h b List.mem_cons_self]
    unfold badFirst
    simp [hc]

theorem junk_not_long {c : UInt8} {l : List UInt8} (oc : List UInt8 → List Seen) (h : Junk c l) (hc : c.toNat / 16 % 8 ≠ 0) (srv : Bool) (frag : Nat) (x : Seen) (n : Nat)
    (hx : x ∈ receive srv oc frag l) : ¬ Long S x n := by
  rintro ⟨-, b, f, bi, rfl⟩
  rcases receive_junk oc h hc srv frag with e | e <;> rw [e] at hx <;> simp at hx

/-- Nothing of a frame is seen when a close frame arrives. -/
theorem onClose_not_long (pl : List UInt8) (x : Seen) (n : Nat) (hx : x ∈ onClose o sc pl) : ¬ Long S x n := by
  rintro ⟨-, b, f, bi, rfl⟩
  unfold onClose at hx
  rw [handleClose_other] at hx
  simp at hx

theorem payE_long {c : UInt8} (hc : c.toNat / 16 % 8 ≠ 0) (rx : Rx) (rest : List UInt8) (h : Junk c (rest.drop rx.remaining)) (x : Seen) (n : Nat)
    (hx : x ∈ payE (onClose o sc) rx rest) (hl : Long S x n) : n = rx.frameLength := by
  have key : ∀ frag, x ∉ receive rx.isServer (onClose o sc) frag (rest.drop rx.remaining) := fun frag q => junk_not_long S _ h hc _ _ x n q hl
  obtain ⟨hn, b, f, bi, rfl⟩ := hl
  unfold payE at hx
  split at hx
  · split at hx
    · cases hx
    · split at hx
      · exact absurd ⟨hn, b, f, bi, rfl⟩ (onClose_not_long S o sc _ _ n hx)
      · split at hx
        · simp only [goOn, List.mem_append] at hx
          rcases hx with hx | hx
          · simp at hx
          · exact absurd hx (key _)
        · split at hx
          · simp only [goOn, List.mem_append] at hx
            rcases hx with hx | hx
            · simp at hx
            · exact absurd hx (key _)
          · simp [goOn] at hx
  · split at hx
    · split at hx
      · simp only [goOn, List.mem_map] at hx
        obtain ⟨y, -, e⟩ := hx
        injection e with e1 e2
        exact e2.symm
      · simp only [goOn, List.mem_append, List.mem_map, List.mem_singleton] at hx
        rcases hx with (⟨y, -, e⟩ | e) | hx
        · injection e with e1 e2
          exact e2.symm
        · cases e
        · exact absurd hx (key _)
    · split at hx
      · simp [goOn] at hx
      · cases hx

theorem maskE_long {c : UInt8} (hc : c.toNat / 16 % 8 ≠ 0) (rx : Rx) (rest : List UInt8) (h : Junk c rest) (x : Seen) (n : Nat)
    (hx : x ∈ maskE (onClose o sc) rx rest) (hl : Long S x n) : n = rx.frameLength := by
  unfold maskE at hx
  split at hx
  · split at hx
    · cases hx
    · exact payE_long S o sc hc { rx with mask := toMask (rest.take 4) } _ ((h.drop 4).drop _) x n hx hl
  · exact payE_long S o sc hc _ _ (h.drop _) x n hx hl

theorem beNat_snoc (l : List UInt8) (c : UInt8) : beNat (l ++ [c]) % 256 = c.toNat := by
  unfold beNat
  rw [List.foldl_append]
  simp only [List.foldl_cons, List.foldl_nil]
  have := c.toNat_lt
  omega

theorem lenE_long (hS : 65535 ≤ S) {c : UInt8} (hc : c.toNat / 16 % 8 ≠ 0) (k : Nat) (hk : k = 2 ∨ k = 8) (rx : Rx) (buf fut : List UInt8) (h : Junk c fut) (hb : buf.length < k)
    (x : Seen) (n : Nat) (hx : x ∈ lenE (onClose o sc) k rx (buf ++ fut)) (hl : Long S x n) : n % 256 = c.toNat := by
  unfold lenE at hx
  split at hx
  · cases hx
  · rename_i hlen
    have hn := maskE_long S o sc hc _ _ (junk_behind h (by omega)) x n hx hl
    dsimp only at hn
    rcases hk with rfl | rfl
    · have h1 := beNat_lt ((buf ++ fut).take 2)
      have h2 : ((buf ++ fut).take 2).length = 2 := by rw [List.length_take]; omega
      rw [h2] at h1
      have := hl.1
      omega
    · have h2 : ((buf ++ fut).take 8).length = 8 := by rw [List.length_take]; omega
      obtain ⟨l, d, e⟩ : ∃ l d, (buf ++ fut).take 8 = l ++ [d] := by
        refine ⟨((buf ++ fut).take 8).dropLast, ((buf ++ fut).take 8).getLast (by intro q; rw [q] at h2; cases h2), (List.dropLast_append_getLast _).symm⟩
      have hd : d = c := by
        have hl' : l.length = 7 := by rw [e] at h2; simp at h2; omega
        have h7 : ((buf ++ fut).take 8)[7]? = some d := by rw [e, List.getElem?_append_right (by omega), hl']; rfl
        rw [List.getElem?_take_of_lt (by omega), List.getElem?_append_right (by omega)] at h7
        exact h d (List.mem_of_getElem? h7)
      rw [hn, e, beNat_snoc, hd]

/-- In a state in which the receiver waits, with nothing that does not fit begun: if the stream goes on with junk, the only frames that do not fit have lengths made of the junk. -/
theorem expect_long (hS : 65535 ≤ S) {c : UInt8} (hc : c.toNat / 16 % 8 ≠ 0) (rx : Rx) (buf fut : List UInt8) (h : Junk c fut) (hm : Small S rx) (hs : step o rx buf = none)
    (x : Seen) (n : Nat) (hx : x ∈ expect (onClose o sc) rx (buf ++ fut)) (hl : Long S x n) : n % 256 = c.toNat := by
  have hfew : ∀ k : Nat, ∀ q : ¬ buf.length ≥ k, buf.length < k := fun k q => by omega
  unfold step at hs
  unfold expect at hx
  split at hx
  · rename_i hcont
    rw [hcont] at hs
    have hb : buf = [] := by
      cases buf with
      | nil => rfl
      | cons b l => cases hs
    subst hb
    exact absurd hl (junk_not_long S _ h hc _ _ x n hx)
  · rename_i hcont
    rw [hcont] at hs
    have hb : buf = [] := by
      cases buf with
      | nil => rfl
      | cons b l => cases hs
    subst hb
    rw [List.nil_append] at hx
    cases fut with
    | nil => cases hx
    | cons b fut =>
      rw [firstE] at hx
      have hj : Junk c fut := fun y hy => h y (List.mem_cons_of_mem _ hy)
      split at hx
      · simp at hx; subst hx; obtain ⟨-, b, f, bi, e⟩ := hl; cases e
      · split at hx
        · have hn := maskE_long S o sc hc _ _ hj x n hx hl
          dsimp only at hn
          have := hl.1
          omega
        · have := lenE_long S o sc hS hc _ (by split <;> simp) _ [] fut hj (by split <;> simp) x n hx hl
          exact this
  · rename_i hcont
    rw [hcont] at hs
    dsimp only at hs
    by_cases q : buf.length ≥ 2
    · rw [if_pos q] at hs; cases hs
    · exact lenE_long S o sc hS hc 2 (.inl rfl) rx buf fut h (hfew 2 q) x n hx hl
  · rename_i hcont
    rw [hcont] at hs
    dsimp only at hs
    by_cases q : buf.length ≥ 8
    · rw [if_pos q] at hs; cases hs
    · exact lenE_long S o sc hS hc 8 (.inr rfl) rx buf fut h (hfew 8 q) x n hx hl
  · rename_i hcont
    rw [hcont] at hs
    dsimp only at hs
    by_cases q : buf.length ≥ 4
    · rw [if_pos q] at hs; cases hs
    · split at hx
      · cases hx
      · have hn := payE_long S o sc hc _ _ ((junk_behind h (by omega)).drop _) x n hx hl
        have := hm (.inl hcont)
        have := hl.1
        dsimp only at hn
        omega
  · rename_i hcont
    rw [hcont] at hs
    dsimp only at hs
    have hb : buf.length ≤ rx.remaining := by
      split at hs
      · split at hs
        · cases hs
        · omega
      · split at hs
        · cases hs
        · omega
    have hn := payE_long S o sc hc _ _ (junk_behind h hb) x n hx hl
    have := hm (.inr hcont)
    have := hl.1
    omega
  · cases hx

/-! ### Frames that do not fit -/

theorem payE_head (oc : List UInt8 → List Seen) (rx : Rx) (rest : List UInt8) (hk : rx.opcode = 1 ∨ rx.opcode = 2) (hn : rx.frameLength > S) (hr : rx.remaining > 0) :
    (rest = [] → payE oc rx rest = []) ∧ (rest ≠ [] → ∃ x more, payE oc rx rest = x :: more ∧ Long S x rx.frameLength) := by
  have h8 : ¬ rx.opcode ≥ 8 := by omega
  unfold payE
  rw [if_neg h8, if_pos hk]
  constructor
  · intro e
    subst e
    have : ¬ rx.remaining ≤ 0 := by omega
    simp [this, goOn, um, xorFrom]
  · intro hne
    have hlen : (um rx (rest.take rx.remaining)).length ≠ 0 := by
      rw [um_length, List.length_take]
      have : rest.length ≠ 0 := fun q => hne (List.length_eq_zero_iff.mp q)
      omega
    generalize um rx (rest.take rx.remaining) = d at hlen ⊢
    cases d with
    | nil => exact absurd rfl hlen
    | cons b d =>
      split
      · exact ⟨_, _, rfl, hn, _, _, _, rfl⟩
      · exact ⟨_, _, rfl, hn, _, _, _, rfl⟩

theorem maskE_head (oc : List UInt8 → List Seen) (rx : Rx) (rest : List UInt8) (hk : rx.opcode = 1 ∨ rx.opcode = 2) (hn : rx.frameLength > S) (hr : rx.remaining > 0) :
    (maskE oc rx rest = [] ∨ ∃ x more, maskE oc rx rest = x :: more ∧ Long S x rx.frameLength) ∧
    (5 ≤ rest.length → ∃ x more, maskE oc rx rest = x :: more ∧ Long S x rx.frameLength) := by
  have key : ∀ (rx : Rx) (rest : List UInt8) (hk : rx.opcode = 1 ∨ rx.opcode = 2) (hn : rx.frameLength > S) (hr : rx.remaining > 0),
      (payE oc rx rest = [] ∨ ∃ x more, payE oc rx rest = x :: more ∧ Long S x rx.frameLength) ∧ (rest ≠ [] → ∃ x more, payE oc rx rest = x :: more ∧ Long S x rx.frameLength) := by
    intro rx rest hk hn hr
    have h := payE_head S oc rx rest hk hn hr
    refine ⟨?_, h.2⟩
    by_cases e : rest = []
    · exact .inl (h.1 e)
    · exact .inr (h.2 e)
  unfold maskE
  split
  · split
    · exact ⟨.inl rfl, fun q => by omega⟩
    · obtain ⟨h1, h2⟩ := key { rx with mask := toMask (rest.take 4) } (rest.drop 4) hk hn hr
      refine ⟨h1, fun q => h2 (fun e => ?_)⟩
      have := congrArg List.length e
      rw [List.length_drop] at this
      simp at this
      omega
  · obtain ⟨h1, h2⟩ := key rx rest hk hn hr
    exact ⟨h1, fun q => h2 (fun e => by subst e; simp at q)⟩

/-- A reserved opcode: at most one failure is to be seen. -/
theorem maskE_reserved (oc : List UInt8 → List Seen) (rx : Rx) (rest : List UInt8) (h8 : rx.opcode < 8) (hk : ¬ (rx.opcode = 1 ∨ rx.opcode = 2)) :
    maskE oc rx rest = [] ∨ maskE oc rx rest = [.other (.fail 1002)] := by
  have key : ∀ (rx : Rx) (rest : List UInt8) (_ : rx.opcode < 8) (_ : ¬ (rx.opcode = 1 ∨ rx.opcode = 2)), payE oc rx rest = [] ∨ payE oc rx rest = [.other (.fail 1002)] := by
    intro rx rest h8 hk
    unfold payE
    rw [if_neg (by omega), if_neg hk]
    split
    · exact .inr rfl
    · exact .inl rfl
  unfold maskE
  split
  · split
    · exact .inl rfl
    · exact key { rx with mask := toMask (rest.take 4) } (rest.drop 4) h8 hk
  · exact key rx rest h8 hk

/-- Two ways to see the same: if no frame that does not fit is before the cut of either, and both go on with one, the cuts are the same. -/
theorem same_cut {A A' B B' : List Seen} {x x' : Seen} {n n' : Nat} (hA : ∀ y ∈ A, ∀ k, ¬ Long S y k) (hA' : ∀ y ∈ A', ∀ k, ¬ Long S y k) (hx : Long S x n) (hx' : Long S x' n')
    (h : A ++ x :: B = A' ++ x' :: B') : A = A' := by
  induction A generalizing A' with
  | nil =>
    cases A' with
    | nil => rfl
    | cons y A' =>
      injection h with h1 h2
      exact absurd (h1 ▸ hx) (hA' y List.mem_cons_self n)
  | cons z A ih =>
    cases A' with
    | nil =>
      injection h with h1 h2
      exact absurd (h1 ▸ hx') (hA z List.mem_cons_self n')
    | cons y A' =>
      injection h with h1 h2
      rw [h1, ih (fun w hw => hA w (List.mem_cons_of_mem _ hw)) (fun w hw => hA' w (List.mem_cons_of_mem _ hw)) h2]

theorem seen_small {outs : List Out} (h : SmallOuts S outs) : ∀ y ∈ seen outs, ∀ k, ¬ Long S y k := by
  rintro y hy k ⟨hk, b, f, bi, rfl⟩
  unfold seen at hy
  rw [List.mem_flatMap] at hy
  obtain ⟨x, hx, hy⟩ := hy
  cases x with
  | chunk n d lc lf bi' =>
    have := h _ _ _ _ _ hx
    simp only [seen1, List.mem_append, List.mem_map] at hy
    rcases hy with ⟨b', -, e⟩ | hy
    · injection e with e1 e2; omega
    · cases lc <;> simp at hy
  | _ => simp [seen1] at hy

/-- What fits and is legal shows nothing that does not fit, and no failure. -/
theorem shownAll_small {server : Bool} {frag : Nat} {fs : List Frame} (hl : Legal server frag fs) (hf : ∀ f ∈ fs, f.payload.length ≤ S) :
    (∀ y ∈ shownAll frag fs, ∀ k, ¬ Long S y k) ∧ ∀ c, .other (.fail c) ∉ shownAll frag fs := by
  induction fs generalizing frag with
  | nil => exact ⟨(fun _ h => by cases h), (fun _ h => by cases h)⟩
  | cons f fs ih =>
    obtain ⟨h1, h2⟩ := ih hl.2.2 (fun g hg => hf g (List.mem_cons_of_mem _ hg))
    have hlen := hf f List.mem_cons_self
    have key : (∀ y ∈ f.shown frag, ∀ k, ¬ Long S y k) ∧ ∀ c, .other (.fail c) ∉ f.shown frag := by
      unfold Frame.shown
      split
      · refine ⟨?_, (fun c h => by simp at h)⟩
        rintro y hy k ⟨-, b, g, bi, rfl⟩
        simp at hy
      · split
        · refine ⟨?_, (fun c h => by simp at h)⟩
          rintro y hy k ⟨-, b, g, bi, rfl⟩
          simp at hy
        · refine ⟨?_, (fun c h => by simp at h)⟩
          rintro y hy k ⟨hk, b, g, bi, rfl⟩
          simp only [List.mem_append, List.mem_map, List.mem_singleton] at hy
          rcases hy with ⟨b', -, e⟩ | e
          · injection e with e1 e2; omega
          · cases e
    rw [shownAll]
    refine ⟨fun y hy => ?_, fun c hc => ?_⟩
    · rcases List.mem_append.mp hy with hy | hy
      · exact key.1 y hy
      · exact h1 y hy
    · rcases List.mem_append.mp hc with hc | hc
      · exact key.2 c hc
      · exact h2 c hc

theorem afterAll_lt {server : Bool} {frag : Nat} {fs : List Frame} (hl : Legal server frag fs) (hf : frag < 8) : afterAll frag fs < 8 := by
  induction fs generalizing frag with
  | nil => exact hf
  | cons f fs ih =>
    refine ih hl.2.2 ?_
    unfold Frame.after Frame.kind
    split
    · exact hf
    · split
      · omega
      · split
        · exact hf
        · omega

/-- A pong and then junk: two things are to be seen. -/
theorem pong_then_junk (oc : List UInt8 → List Seen) (server : Bool) (frag : Nat) (hf : frag < 8) : ∃ fut, (receive server oc frag fut).length = 2 := by
  have hb : badFirst frag 0x8A = false := by unfold badFirst; simp
  have hbad : ∀ frag, badFirst frag 0xFF = true := fun frag => by unfold badFirst; simp
  have hr : ∀ srv frag, receive srv oc frag [0xFF] = [.other (.fail 1002)] := fun srv frag => receive_bad oc srv frag _ _ (hbad frag)
  have hk : kindOf frag 0x8A = 10 := by unfold kindOf; simp
  cases server with
  | false =>
    refine ⟨[0x8A, 0x00, 0xFF], ?_⟩
    rw [receive_cons oc false frag hf 0x8A [0x00, 0xFF] { isServer := false, selfClose := false, addr := 0, utf8 := ⟨0, 0⟩, fin := decide ((0x8A : UInt8).toNat ≥ 128), opcode := kindOf frag 0x8A, frag := fragOf frag 0x8A } rfl rfl rfl rfl hb]
    rw [hk]
    simp [firstE, badSecond, maskE, payE, goOn, hr]
  | true =>
    refine ⟨[0x8A, 0x80, 0, 0, 0, 0, 0xFF], ?_⟩
    rw [receive_cons oc true frag hf 0x8A [0x80, 0, 0, 0, 0, 0xFF] { isServer := true, selfClose := false, addr := 0, utf8 := ⟨0, 0⟩, fin := decide ((0x8A : UInt8).toNat ≥ 128), opcode := kindOf frag 0x8A, frag := fragOf frag 0x8A } rfl rfl rfl rfl hb]
    rw [hk]
    simp [firstE, badSecond, maskE, payE, goOn, hr]

theorem expect_len64 (oc : List UInt8 → List Seen) (rx : Rx) (r : List UInt8) (h : rx.cont = .len64) : expect oc rx r = lenE oc 8 rx r := by
  unfold expect
  split <;> first | rfl | (rename_i q; rw [h] at q; cases q)

theorem runW_start (hS : 65535 ≤ S) (server : Bool) (u : Utf8.State) (pieces : List (Nat × List UInt8)) :
    (outsOfW S o server sc u pieces = outsOf o server sc u pieces ∧
      ∃ rx buf, Ended S o sc (fun fut => receive server (onClose o sc) 0 (streamOf pieces ++ fut)) rx buf (outsOf o server sc u pieces)) ∨
    Refused S o sc (fun fut => receive server (onClose o sc) 0 (streamOf pieces ++ fut)) (outsOfW S o server sc u pieces) := by
  have h := runW_spec S o sc hS (start server sc u) [] [] pieces
    ⟨rfl, by simp [start], rfl, fun h => (by cases h), fun h => (by rcases h with h | h <;> cases h), fun h => (by rcases h with h | h <;> cases h), by decide⟩
    (fun q => by rcases q with q | q <;> cases q) rfl
  rcases h with ⟨h1, h2⟩ | h
  · left
    refine ⟨?_, _, _, h2⟩
    unfold outsOfW outsOf
    rw [h1]
  · exact .inr h

end

/-- C95: whatever arrives, the application is never shown a piece of a frame whose length is not a `size_t`. -/
theorem lengths_fit (S : Nat) (hS : 65535 ≤ S) (o : Endian.Order) (server sc : Bool) (u : Utf8.State) (pieces : List (Nat × List UInt8)) (n : Nat) (d : List UInt8) (lc lf b : Bool)
    (h : .chunk n d lc lf b ∈ outsOfW S o server sc u pieces) : n ≤ S := by
  rcases runW_start S o sc hS server u pieces with ⟨e, rx, buf, -, -, hs, -⟩ | ⟨pre, rx, buf, e, hs, -⟩
  · rw [e] at h; exact hs _ _ _ _ _ h
  · rw [e] at h
    rcases List.mem_append.mp h with h | h
    · exact hs _ _ _ _ _ h
    · simp at h

/-- C95: streams of frames that fit are received exactly as on a 64 bit platform, text that is cut inside a character included. -/
theorem fitting_frames_as_before (S : Nat) (hS : 65535 ≤ S) (o : Endian.Order) (server sc : Bool) (u : Utf8.State) (fs : List Frame) (hl : Legal server 0 fs)
    (hf : ∀ f ∈ fs, f.payload.length ≤ S) (pieces : List (Nat × List UInt8)) (hp : streamOf pieces = fs.flatMap Frame.wire) :
    outsOfW S o server sc u pieces = outsOf o server sc u pieces := by
  rcases runW_start S o sc hS server u pieces with ⟨e, -⟩ | ⟨pre, rx, buf, e, hs, h1, h2, h3, h4, h5⟩
  · exact e
  · exfalso
    obtain ⟨q1, q2⟩ := shownAll_small S hl hf
    have hE : ∀ fut, seen pre ++ maskE (onClose o sc) { rx with remaining := beNat (buf.take 8), frameLength := beNat (buf.take 8) } (buf.drop 8 ++ fut) =
        shownAll 0 fs ++ receive server (onClose o sc) (afterAll 0 fs) fut := by
      intro fut
      have h := h5 fut
      dsimp only at h
      rw [hp, receive_frames (onClose o sc) server 0 fs fut hl] at h
      rw [← h]
      rw [expect_len64 _ rx _ h1]
      unfold lenE
      rw [if_neg (by rw [List.length_append]; omega), List.take_append_of_le_length h3, List.drop_append_of_le_length h3]
    by_cases hk : rx.opcode = 1 ∨ rx.opcode = 2
    · have hj : Junk 0x7F (List.replicate 5 (0x7F : UInt8)) := fun x hx => (List.mem_replicate.mp hx).2
      obtain ⟨x, more, e1, e2⟩ := (maskE_head S (onClose o sc) { rx with remaining := beNat (buf.take 8), frameLength := beNat (buf.take 8) } (buf.drop 8 ++ List.replicate 5 0x7F) hk h4 (by dsimp only; omega)).2
        (by rw [List.length_append, List.length_replicate]; omega)
      have h := hE (List.replicate 5 0x7F)
      rw [e1] at h
      have hm : x ∈ shownAll 0 fs ++ receive server (onClose o sc) (afterAll 0 fs) (List.replicate 5 0x7F) := by rw [← h]; simp
      rcases List.mem_append.mp hm with hm | hm
      · exact q1 x hm _ e2
      · exact junk_not_long S (onClose o sc) hj (by decide) _ _ x _ hm e2
    · have h0 := hE []
      rw [receive_nil, List.append_nil (shownAll 0 fs)] at h0
      obtain ⟨fut, hfut⟩ := pong_then_junk (onClose o sc) server (afterAll 0 fs) (afterAll_lt hl (by omega))
      have h6 := congrArg List.length (hE fut)
      have h7 := congrArg List.length h0
      rw [List.length_append, List.length_append, hfut] at h6
      rw [List.length_append] at h7
      rcases maskE_reserved (onClose o sc) { rx with remaining := beNat (buf.take 8), frameLength := beNat (buf.take 8) } (buf.drop 8 ++ fut) h2 hk with e1 | e1 <;>
        rw [e1] at h6 <;> simp at h6 <;> omega

/-- C95: frames that fit are delivered (C18; the same condition on text). -/
theorem fitting_frames_delivered (S : Nat) (hS : 65535 ≤ S) (o : Endian.Order) (server sc : Bool) (u : Utf8.State) (fs : List Frame) (hl : Legal server 0 fs)
    (hf : ∀ f ∈ fs, f.payload.length ≤ S) (pieces : List (Nat × List UInt8)) (hp : streamOf pieces = fs.flatMap Frame.wire)
    (ht : NoTextFrames 0 fs ∨ TextOk server (onClose o sc) pieces) : seen (outsOfW S o server sc u pieces) = shownAll 0 fs := by
  rw [fitting_frames_as_before S hS o server sc u fs hl hf pieces hp]
  rcases ht with ht | ht
  · exact binary_frames_delivered o server sc u fs hl ht pieces hp
  · exact frames_delivered_partial o server sc u fs hl pieces hp ht

/-- C95: a data frame that does not fit is refused with status 1009 (message too big) as soon as its length has arrived; what was sent before is shown, nothing of the frame or behind it
is.  Unless the connection has failed before over a text message, exactly as on a 64 bit platform.  `b0`, `b1` and the eight bytes `len` are the beginning of a frame that is legal
after the frames `fs`. -/
theorem oversized_frame_refused (S : Nat) (hS : 65535 ≤ S) (o : Endian.Order) (server sc : Bool) (u : Utf8.State) (fs : List Frame) (hl : Legal server 0 fs)
    (hf : ∀ f ∈ fs, f.payload.length ≤ S) (b0 b1 : UInt8) (len rest : List UInt8) (hb : ¬ Malformed server (afterAll 0 fs) b0 b1)
    (hk : kindOf (afterAll 0 fs) b0 = 1 ∨ kindOf (afterAll 0 fs) b0 = 2) (h127 : b1.toNat % 128 = 127) (h8 : len.length = 8) (hlong : beNat len > S)
    (pieces : List (Nat × List UInt8)) (hp : streamOf pieces = fs.flatMap Frame.wire ++ b0 :: b1 :: (len ++ rest)) :
    seen (outsOfW S o server sc u pieces) = shownAll 0 fs ++ [.other (.fail 1009)] ∨
    (outsOfW S o server sc u pieces = outsOf o server sc u pieces ∧ (∃ q, outsOf o server sc u pieces = q ++ [.fail 1007]) ∧
      (seen (outsOf o server sc u pieces) ≠ receive server (onClose o sc) 0 (streamOf pieces))) := by
  obtain ⟨q1, q2⟩ := shownAll_small S hl hf
  have hfrag := afterAll_lt hl (by omega)
  have hb1 : badFirst (afterAll 0 fs) b0 = false := by
    unfold Malformed at hb
    unfold badFirst
    have h4 : ¬ (b0.toNat % 16 ≥ 8 ∧ b0.toNat < 128) := fun q => hb (.inr (.inl q))
    have h5 : ¬ (b0.toNat / 16 % 8 ≠ 0) := fun q => hb (.inl q)
    have h6 : ¬ (b0.toNat % 16 = 0 ∧ afterAll 0 fs = 0) := fun q => hb (.inr (.inr (.inr (.inl q))))
    have h7 : ¬ (0 < b0.toNat % 16 ∧ b0.toNat % 16 < 8 ∧ afterAll 0 fs ≠ 0) := fun q => hb (.inr (.inr (.inr (.inr (.inl q)))))
    simp
    omega
  have hb2 : badSecond server (kindOf (afterAll 0 fs) b0) b1 = false := by
    unfold badSecond
    have h4 : ¬ (b1.toNat ≥ 128 ↔ server = false) := fun q => hb (.inr (.inr (.inr (.inr (.inr q)))))
    cases server <;> by_cases hx : b1.toNat ≥ 128 <;> simp [hx] at h4 ⊢ <;> omega
  -- what is to be seen
  let rxL : Rx := { isServer := server, selfClose := sc, addr := 0, utf8 := u, fin := decide (b0.toNat ≥ 128), opcode := kindOf (afterAll 0 fs) b0, frag := fragOf (afterAll 0 fs) b0, remaining := beNat len, frameLength := beNat len }
  have hrec : ∀ fut, receive server (onClose o sc) 0 (streamOf pieces ++ fut) = shownAll 0 fs ++ maskE (onClose o sc) rxL (rest ++ fut) := by
    intro fut
    rw [hp, List.append_assoc, receive_frames (onClose o sc) server 0 fs _ hl]
    congr 1
    rw [List.cons_append, List.cons_append, receive_cons (onClose o sc) server (afterAll 0 fs) hfrag b0 _ rxL rfl rfl rfl rfl hb1, firstE]
    rw [if_neg (by rw [hb2]; exact Bool.false_ne_true), if_neg (by omega), if_neg (by omega)]
    unfold lenE
    rw [List.append_assoc, if_neg (by rw [List.length_append]; omega), List.take_append_of_le_length (by omega), List.drop_append_of_le_length (by omega), ← h8, List.take_length, List.drop_length,
      List.nil_append]
  have hhead := fun rest => maskE_head S (onClose o sc) rxL rest hk hlong (by show beNat len > 0; omega)
  rcases runW_start S o sc hS server u pieces with ⟨e, rx, buf, g1, g2, g3, g4⟩ | ⟨pre, rx, buf, e, hs, h1, h2, h3, h4, h5⟩
  · rcases g4 with g4 | ⟨q, g4⟩
    · exfalso
      have key : ∀ c : UInt8, c.toNat / 16 % 8 ≠ 0 → beNat len % 256 = c.toNat := by
        intro c hc
        have hj : Junk c (List.replicate 5 c) := fun x hx => (List.mem_replicate.mp hx).2
        obtain ⟨x, more, e1, e2⟩ := (hhead (rest ++ List.replicate 5 c)).2 (by rw [List.length_append, List.length_replicate]; omega)
        have h := g4 (List.replicate 5 c)
        dsimp only at h
        rw [hrec, e1] at h
        have hm : x ∈ seen (outsOf o server sc u pieces) ++ expect (onClose o sc) rx (buf ++ List.replicate 5 c) := by rw [h]; simp
        rcases List.mem_append.mp hm with hm | hm
        · exact absurd e2 (seen_small S g3 x hm _)
        · exact expect_long S o sc hS hc rx buf _ hj g2 g1 x _ hm e2
      have k1 := key 0x7F (by decide)
      have k2 := key 0x7E (by decide)
      rw [k1] at k2
      exact absurd k2 (by decide)
    · refine .inr ⟨e, ⟨q, g4⟩, fun hsee => ?_⟩
      have h := hrec []
      rw [List.append_nil, List.append_nil, ← hsee] at h
      rcases (hhead rest).1 with e1 | ⟨x, more, e1, e2⟩
      · rw [e1, List.append_nil, g4, seen_append] at h
        exact q2 1007 (by rw [← h]; simp [seen, seen1])
      · rw [e1] at h
        exact seen_small S g3 x (by rw [h]; simp) _ e2
  · left
    rw [e, seen_append]
    have hE : ∀ fut, seen pre ++ maskE (onClose o sc) { rx with remaining := beNat (buf.take 8), frameLength := beNat (buf.take 8) } (buf.drop 8 ++ fut) =
        shownAll 0 fs ++ maskE (onClose o sc) rxL (rest ++ fut) := by
      intro fut
      have h := h5 fut
      dsimp only at h
      rw [hrec] at h
      rw [← h]
      rw [expect_len64 _ rx _ h1]
      unfold lenE
      rw [if_neg (by rw [List.length_append]; omega), List.take_append_of_le_length h3, List.drop_append_of_le_length h3]
    obtain ⟨x, more, e1, e2⟩ := (hhead (rest ++ List.replicate 5 0)).2 (by rw [List.length_append, List.length_replicate]; omega)
    have h := hE (List.replicate 5 0)
    rw [e1] at h
    by_cases hk' : rx.opcode = 1 ∨ rx.opcode = 2
    · obtain ⟨x', more', e3, e4⟩ := (maskE_head S (onClose o sc) { rx with remaining := beNat (buf.take 8), frameLength := beNat (buf.take 8) } (buf.drop 8 ++ List.replicate 5 0) hk' h4 (by dsimp only; omega)).2
        (by rw [List.length_append, List.length_replicate]; omega)
      rw [e3] at h
      rw [same_cut S (seen_small S hs) q1 e4 e2 h]
      rfl
    · exfalso
      have hm : x ∈ seen pre ++ maskE (onClose o sc) { rx with remaining := beNat (buf.take 8), frameLength := beNat (buf.take 8) } (buf.drop 8 ++ List.replicate 5 0) := by rw [h]; simp
      rcases List.mem_append.mp hm with hm | hm
      · exact seen_small S hs x hm _ e2
      · rcases maskE_reserved (onClose o sc) { rx with remaining := beNat (buf.take 8), frameLength := beNat (buf.take 8) } (buf.drop 8 ++ List.replicate 5 0) h2 hk' with e3 | e3
        · rw [e3] at hm; cases hm
        · rw [e3] at hm
          obtain ⟨-, b, f, bi, rfl⟩ := e2
          simp at hm

/-- C95: the same if no text message can be refused: there is none, or all are well-formed and no piece ends inside a character. -/
theorem oversized_frame_refused_text (S : Nat) (hS : 65535 ≤ S) (o : Endian.Order) (server sc : Bool) (u : Utf8.State) (fs : List Frame) (hl : Legal server 0 fs)
    (hf : ∀ f ∈ fs, f.payload.length ≤ S) (b0 b1 : UInt8) (len rest : List UInt8) (hb : ¬ Malformed server (afterAll 0 fs) b0 b1)
    (hk : kindOf (afterAll 0 fs) b0 = 1 ∨ kindOf (afterAll 0 fs) b0 = 2) (h127 : b1.toNat % 128 = 127) (h8 : len.length = 8) (hlong : beNat len > S)
    (pieces : List (Nat × List UInt8)) (hp : streamOf pieces = fs.flatMap Frame.wire ++ b0 :: b1 :: (len ++ rest))
    (ht : NoText (receive server (onClose o sc) 0 (streamOf pieces)) ∨ TextOk server (onClose o sc) pieces) :
    seen (outsOfW S o server sc u pieces) = shownAll 0 fs ++ [.other (.fail 1009)] := by
  refine (oversized_frame_refused S hS o server sc u fs hl hf b0 b1 len rest hb hk h127 h8 hlong pieces hp).resolve_right (fun q => q.2.2 ?_)
  rcases ht with ht | ht
  · exact binary_received_as_specified o server sc u pieces ht
  · exact received_as_specified_partial o server sc u pieces ht

/-- The first bytes of a masked binary frame of 4294967296 bytes on a 32 bit platform, after a binary frame of one byte, in two pieces. -/
example : seen (outsOfW (2 ^ 32 - 1) .little true false ⟨0, 0⟩ [(0, [0x82, 0x81, 1, 2, 3, 4, 0x41, 0x82, 0xFF, 0, 0, 0]), (64, [1, 0, 0, 0, 0, 9])]) =
    [.byte 0x40 1 true true, .frameEnd 1 true true, .other (.fail 1009)] := by decide +kernel

end Cio.WsRecv
