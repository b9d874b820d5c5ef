import Verif.WsRecv.Lemmas
/-
Each run of a read handler keeps what is to be seen of the whole stream.
-/
namespace Cio.WsRecv
open Rfc6455 Masking

theorem seen_append (a b : List Out) : seen (a ++ b) = seen a ++ seen b := by simp [seen]
theorem seen_nil : seen [] = [] := rfl
theorem seen_single (x : Out) : seen [x] = seen1 x := by simp [seen]

theorem pend_append (p : List UInt8) (a b : List Seen) : pend p (a ++ b) = pend (pend p a) b := by
  induction a generalizing p with
  | nil => rfl
  | cons x a ih =>
    rw [List.cons_append]
    match x with
    | .byte _ _ _ false => exact ih _
    | .byte _ _ _ true => exact ih _
    | .frameEnd _ true false => exact ih _
    | .frameEnd _ false false => exact ih _
    | .frameEnd _ true true => exact ih _
    | .frameEnd _ false true => exact ih _
    | .other _ => exact ih _

theorem texts_append (p : List UInt8) (a b : List Seen) : texts p (a ++ b) = texts p a ++ texts (pend p a) b := by
  induction a generalizing p with
  | nil => rfl
  | cons x a ih =>
    rw [List.cons_append]
    match x with
    | .byte _ _ _ false => exact ih _
    | .byte _ _ _ true => exact ih _
    | .frameEnd _ true false => exact congrArg (p :: ·) (ih _)
    | .frameEnd _ false false => exact ih _
    | .frameEnd _ true true => exact ih _
    | .frameEnd _ false true => exact ih _
    | .other _ => exact ih _

theorem pend_bytes (p d : List UInt8) (n : Nat) (fin : Bool) : pend p (d.map (fun b => Seen.byte b n fin false)) = p ++ d := by
  induction d generalizing p with
  | nil => simp [pend]
  | cons b d ih => rw [List.map_cons, pend, ih]; simp
theorem pend_bytes' (p d : List UInt8) (n : Nat) (fin : Bool) : pend p (d.map (fun b => Seen.byte b n fin true)) = p := by
  induction d generalizing p with
  | nil => simp [pend]
  | cons b d ih => exact ih p
theorem texts_bytes (p d : List UInt8) (n : Nat) (fin b : Bool) : texts p (d.map (fun x => Seen.byte x n fin b)) = [] := by
  induction d generalizing p with
  | nil => simp [texts]
  | cons x d ih =>
    cases b
    · exact ih _
    · exact ih _

theorem um_length (rx : Rx) (d : List UInt8) : (um rx d).length = d.length := by
  unfold um; split
  · exact xorFrom_length _ _ _
  · rfl

/-- The state after a data chunk of `n` bytes. -/
def advance (rx : Rx) (n : Nat) : Rx := { rx with mask := correctMask rx.mask n }

theorem um_append (rx : Rx) (a b : List UInt8) : um rx (a ++ b) = um rx a ++ um (advance rx a.length) b := by
  unfold um advance
  simp only
  split
  · rw [xorFrom_append, correct_mask_correct, Nat.zero_add]
  · rfl

section
variable (oc : List UInt8 → List Seen)

theorem payE_data (rx : Rx) (hk : rx.opcode = 1 ∨ rx.opcode = 2) (data fut : List UInt8) :
    payE oc { rx with remaining := rx.remaining + data.length } (data ++ fut) =
      (um rx data).map (fun b => Seen.byte b rx.frameLength rx.fin (decide (rx.opcode = 2))) ++
        (if rx.remaining = 0 then .frameEnd rx.frameLength rx.fin (decide (rx.opcode = 2)) :: receive rx.isServer oc rx.frag fut
        else payE oc (advance rx data.length) fut) := by
  have h8 : ¬ rx.opcode ≥ 8 := by omega
  have e1 : (data ++ fut).take (rx.remaining + data.length) = data ++ fut.take rx.remaining := by
    rw [Nat.add_comm, List.take_length_add_append]
  have e2 : (data ++ fut).drop (rx.remaining + data.length) = fut.drop rx.remaining := by
    rw [Nat.add_comm, List.drop_length_add_append]
  have e3 : ∀ d, um { rx with remaining := rx.remaining + data.length } d = um rx d := fun _ => rfl
  have e4 : (rx.remaining + data.length ≤ (data ++ fut).length) ↔ rx.remaining ≤ fut.length := by rw [List.length_append]; omega
  unfold payE
  simp only [h8, hk, if_false, if_true, e1, e2, e3, e4, um_append, List.map_append]
  have a8 : ¬ (advance rx data.length).opcode ≥ 8 := h8
  have ak : (advance rx data.length).opcode = 1 ∨ (advance rx data.length).opcode = 2 := hk
  rw [if_neg a8, if_pos ak]
  by_cases h0 : rx.remaining = 0
  · rw [if_pos h0]
    simp only [h0, Nat.zero_le, decide_true, Bool.true_eq_false, if_false, List.take_zero, goOn, List.drop_zero]
    unfold um; split <;> simp [xorFrom]
  · rw [if_neg h0]
    by_cases hc : rx.remaining ≤ fut.length
    · have hc' : (advance rx data.length).remaining ≤ fut.length := hc
      simp only [hc, hc', decide_true, Bool.true_eq_false, if_false, goOn, List.append_assoc]
      rfl
    · have hc' : ¬ (advance rx data.length).remaining ≤ fut.length := hc
      simp only [hc, hc', decide_false, if_true, goOn]
      rfl
end

/-- What holds between two runs of handlers; `p` are the bytes of the text message in progress. -/
structure Inv (sc : Bool) (rx : Rx) (p : List UInt8) : Prop where
  self : rx.selfClose = sc
  frag : rx.frag < 8
  utf8 : rx.utf8.state = Utf8.run 0 p
  pay : rx.cont = .payload → rx.remaining > 0
  ctl : rx.cont = .payload ∨ rx.cont = .mask → rx.opcode ≥ 8 → rx.remaining ≤ 125
  len : rx.cont = .len16 ∨ rx.cont = .len64 → rx.opcode < 8
  live : Utf8.run 0 p ≠ 12

theorem inv_state {sc rx p} (h : Inv sc rx p) : rx.utf8.state ∈ Utf8.V := by
  rw [h.utf8]; exact Utf8.run_mem _ (by decide) _

theorem handleClose_addr (sc : Bool) (o : Endian.Order) (a : Nat) (data : List UInt8) :
    handleClose sc o a data = handleClose sc o 0 data := by
  unfold handleClose
  obtain ⟨s1, h1, -⟩ := Utf8.check_spec (Utf8.init ⟨0, 0⟩) (a + 2)
    ((data.drop 2).take ((if data.length ≥ 2 then data.length - 2 else data.length) - 2)) (by decide)
  obtain ⟨s2, h2, -⟩ := Utf8.check_spec (Utf8.init ⟨0, 0⟩) (0 + 2)
    ((data.drop 2).take ((if data.length ≥ 2 then data.length - 2 else data.length) - 2)) (by decide)
  simp only [h1, h2]

/-- Results of handlers: either what was to be seen is seen, or a text message is rejected.  `before` and `after` are what is to be seen of the
stream, as functions of the bytes that have not arrived. -/
inductive Res (sc : Bool) (p : List UInt8) (before after : List UInt8 → List Seen) (rx' : Rx) (outs : List Out) : Prop
  | good (h : ∀ fut, seen outs ++ after fut = before fut) (inv : Inv sc rx' (pend p (seen outs)))
      (wf : ∀ m ∈ texts p (seen outs), Utf8.WellFormed m)
      (cut : ∀ b n, (seen outs).getLast? = some (.byte b n true false) → Utf8.run 0 (pend p (seen outs)) = 0 := by
        intro b n hlast; first | cases hlast | simp [seen, seen1, failed] at hlast)
  | bad (q : List Out) (d : List UInt8) (n : Nat) (fin : Bool) (he : outs = q ++ [.fail 1007]) (hstop : rx'.cont = .stopped)
      (wf : ∀ m ∈ texts p (seen q), Utf8.WellFormed m)
      (hshow : ∀ fut, ∃ x, before fut = seen q ++ d.map (fun b => Seen.byte b n fin false) ++ x)
      (why : Utf8.run 0 (pend p (seen q) ++ d) = 12 ∨ (fin = true ∧ Utf8.run 0 (pend p (seen q) ++ d) ≠ 0 ∧
        ((∀ fut, ∃ x, before fut = seen q ++ d.map (fun b => Seen.byte b n fin false) ++ Seen.frameEnd n fin false :: x) ∨
          (d ≠ [] ∧ before [] = seen q ++ d.map (fun b => Seen.byte b n fin false)))))
      (ne : d ≠ [] ∨ ∀ fut, ∃ x, before fut = seen q ++ Seen.frameEnd n fin false :: x)

section
variable (oc : List UInt8 → List Seen)

theorem expect_readMessage (rx : Rx) (fut : List UInt8) :
    expect oc (readMessage rx) fut = if rx.remaining = 0 then receive rx.isServer oc rx.frag fut else payE oc rx fut := by
  unfold readMessage expect
  by_cases h : rx.remaining = 0
  · simp only [h, if_true]
  · simp only [h, if_false]; rfl

theorem inv_readMessage {sc rx p} (h : Inv sc rx p) (hc : rx.opcode < 8) (q : List UInt8) (u : Utf8.State) (m : Mask) (hu : u.state = Utf8.run 0 q) (hl : Utf8.run 0 q ≠ 12) :
    Inv sc (readMessage { rx with utf8 := u, mask := m }) q := by
  refine ⟨h.self, h.frag, hu, ?_, ?_, ?_, hl⟩
  · intro hp
    have : rx.remaining ≠ 0 := by
      intro h0
      simp [readMessage, h0] at hp
    exact Nat.pos_of_ne_zero this
  · intro _ hge
    exact absurd hge (by simpa [readMessage] using hc)
  · intro _; simpa [readMessage] using hc

theorem chunk_good (sc : Bool) (rx : Rx) (p : List UInt8) (hi : Inv sc rx p) (hk : rx.opcode = 1 ∨ rx.opcode = 2)
    (data tail : List UInt8) (u : Utf8.State) (m : Mask) (bin : Bool) (hbin : bin = decide (rx.opcode = 2))
    (hu : u.state = Utf8.run 0 (pend p (seen [.chunk rx.frameLength (um rx data) (decide (rx.remaining = 0)) rx.fin bin])))
    (hm : rx.remaining ≠ 0 → m = correctMask rx.mask data.length)
    (hwf : ∀ t ∈ texts p (seen [.chunk rx.frameLength (um rx data) (decide (rx.remaining = 0)) rx.fin bin]), Utf8.WellFormed t)
    (hlive : Utf8.run 0 (pend p (seen [.chunk rx.frameLength (um rx data) (decide (rx.remaining = 0)) rx.fin bin])) ≠ 12)
    (hcut : bin = false → rx.fin = true → Utf8.run 0 (pend p (seen [.chunk rx.frameLength (um rx data) (decide (rx.remaining = 0)) rx.fin bin])) = 0) :
    Res sc p (fun fut => payE oc { rx with remaining := rx.remaining + data.length } (data ++ (tail ++ fut)))
      (fun fut => expect oc (readMessage { rx with utf8 := u, mask := m }) (tail ++ fut)) (readMessage { rx with utf8 := u, mask := m })
      [.chunk rx.frameLength (um rx data) (decide (rx.remaining = 0)) rx.fin bin] := by
  refine .good ?_ (inv_readMessage hi (by omega) _ u m hu hlive) hwf ?_
  rotate_left
  · intro b n hlast
    have hmem := List.mem_of_getLast? hlast
    rw [seen_single, seen1] at hmem
    have : bin = false ∧ rx.fin = true := by
      rcases List.mem_append.mp hmem with h | h
      · obtain ⟨x, -, hx⟩ := List.mem_map.mp h
        injection hx with _ _ e1 e2
        exact ⟨e2, e1⟩
      · split at h
        · rw [List.mem_singleton] at h; cases h
        · cases h
    exact hcut this.1 this.2
  intro fut
  rw [payE_data oc rx hk, expect_readMessage, seen_single, seen1, hbin]
  by_cases h0 : rx.remaining = 0
  · simp only [h0, decide_true, if_true, List.append_assoc]
    rfl
  · rw [if_neg h0, if_neg (by simpa using h0), if_neg (by simpa using h0), List.append_nil]
    rw [hm h0]
    rfl

theorem seen_chunk_text (n : Nat) (d : List UInt8) (lc fin : Bool) (p : List UInt8) :
    pend p (seen [.chunk n d lc fin false]) = (if lc = true ∧ fin = true then [] else p ++ d) ∧
    texts p (seen [.chunk n d lc fin false]) = (if lc = true ∧ fin = true then [p ++ d] else []) := by
  rw [seen_single, seen1, pend_append, texts_append, pend_bytes, texts_bytes]
  cases lc <;> cases fin <;> simp [pend, texts]

theorem seen_chunk_binary (n : Nat) (d : List UInt8) (lc fin : Bool) (p : List UInt8) :
    pend p (seen [.chunk n d lc fin true]) = p ∧ texts p (seen [.chunk n d lc fin true]) = [] := by
  rw [seen_single, seen1, pend_append, texts_append, pend_bytes', texts_bytes]
  cases lc <;> cases fin <;> simp [pend, texts]

theorem handleFrame_data (o : Endian.Order) (sc : Bool) (rx : Rx) (p : List UInt8) (hi : Inv sc rx p) (hk : rx.opcode = 1 ∨ rx.opcode = 2)
    (data tail : List UInt8) (ht : rx.remaining ≠ 0 → tail = []) (hne : rx.remaining = 0 ∨ data ≠ []) :
    Res sc p (fun fut => payE oc { rx with remaining := rx.remaining + data.length } (data ++ (tail ++ fut)))
      (fun fut => expect oc (handleFrame o rx data).1 (tail ++ fut)) (handleFrame o rx data).1 (handleFrame o rx data).2 := by
  have hum : (if rx.isServer = true then unmaskAt rx.addr rx.mask data else data) = um rx data := by
    unfold um; rw [unmaskAt_eq]
  have h8 : rx.opcode < 8 := by omega
  unfold handleFrame
  simp only [hum]
  have hlen : (um rx data).length = data.length := um_length _ _
  rcases hk with h1 | h2
  · have hb : decide (rx.opcode = 2) = false := by rw [h1]; decide
    rw [if_neg (by omega), if_pos h1]
    have hst := inv_state hi
    obtain ⟨s', hc, hs'⟩ := Utf8.check_spec rx.utf8 rx.addr (um rx data) hst
    unfold handleText
    simp only [hc]
    have hrun : Utf8.run rx.utf8.state (um rx data) = Utf8.run 0 (p ++ um rx data) := by rw [hi.utf8, Utf8.run_append]
    rw [hrun] at hs' ⊢
    by_cases hbad : Utf8.run 0 (p ++ um rx data) = Utf8.REJECT ∨ rx.fin = true ∧ Utf8.run 0 (p ++ um rx data) ≠ Utf8.ACCEPT
    · rw [if_pos hbad]
      have hne' : rx.remaining ≠ 0 → um rx data ≠ [] := by
        intro h0 hn
        have := hlen
        rw [hn] at this
        rcases hne with h | h
        · exact h0 h
        · exact h (List.length_eq_zero_iff.mp this.symm)
      refine .bad [] (um rx data) rx.frameLength rx.fin rfl rfl (by intro m hm; cases hm) ?_ ?_ ?_
      · intro fut
        exact ⟨_, by rw [payE_data oc rx (.inl h1), hb]; rfl⟩
      · rcases hbad with hr | ⟨hf, hr⟩
        · exact .inl hr
        · refine .inr ⟨hf, hr, ?_⟩
          by_cases h0 : rx.remaining = 0
          · left
            intro fut
            exact ⟨_, by rw [payE_data oc rx (.inl h1), hb, if_pos h0]; rfl⟩
          · right
            refine ⟨hne' h0, ?_⟩
            show payE oc _ (data ++ (tail ++ [])) = _
            rw [ht h0, List.append_nil]
            rw [payE_data oc rx (.inl h1), hb, if_neg h0]
            have : payE oc (advance rx data.length) [] = [] := by
              unfold payE
              have a8 : ¬ (advance rx data.length).opcode ≥ 8 := by show ¬ rx.opcode ≥ 8; omega
              have ak : (advance rx data.length).opcode = 1 ∨ (advance rx data.length).opcode = 2 := .inl h1
              have ar : ¬ ((advance rx data.length).remaining ≤ ([] : List UInt8).length) := by
                show ¬ rx.remaining ≤ 0; omega
              rw [if_neg a8, if_pos ak]
              simp only [ar, decide_false, if_true, goOn, List.take_nil]
              unfold um; split <;> rfl
            rw [this]
            simp [seen]
      · by_cases h0 : rx.remaining = 0
        · by_cases hd : um rx data = []
          · right
            intro fut
            exact ⟨_, by rw [payE_data oc rx (.inl h1), hb, if_pos h0, hd]; rfl⟩
          · exact .inl hd
        · exact .inl (hne' h0)
    · rw [if_neg hbad]
      simp only [not_or, not_and, Decidable.not_not] at hbad
      refine chunk_good oc sc rx p hi (.inl h1) data tail (if rx.fin = true then Utf8.init s' else s') _ false hb.symm ?_ ?_ ?_ ?_ ?_
      · rw [(seen_chunk_text _ _ _ _ _).1]
        by_cases hf : rx.fin = true
        · have h0 := hbad.2 hf
          rw [if_pos hf]
          split
          · rfl
          · rw [h0]; rfl
        · rw [if_neg hf, if_neg (fun h => hf h.2), hs']
      · intro h0
        rw [if_neg (by simpa using h0), hlen]
      · rw [(seen_chunk_text _ _ _ _ _).2]
        intro t ht
        split at ht
        · next h => 
          rw [List.mem_singleton] at ht
          subst ht
          exact (Utf8.run_zero_iff _).mp (hbad.2 h.2)
        · cases ht
      · rw [(seen_chunk_text _ _ _ _ _).1]
        split
        · decide
        · exact hbad.1
      · intro _ hf
        rw [(seen_chunk_text _ _ _ _ _).1]
        split
        · rfl
        · exact hbad.2 hf
  · have hb : decide (rx.opcode = 2) = true := by rw [h2]; decide
    rw [if_pos h2]
    unfold handleBinary
    refine chunk_good oc sc rx p hi (.inr h2) data tail rx.utf8 _ true hb.symm ?_ ?_ ?_ ?_ (fun h => by cases h)
    · rw [(seen_chunk_binary _ _ _ _ _).1, hi.utf8]
    · intro h0
      rw [if_neg (by simpa using h0), hlen]
    · rw [(seen_chunk_binary _ _ _ _ _).2]
      intro t ht; cases ht
    · rw [(seen_chunk_binary _ _ _ _ _).1]
      exact hi.live
end

/-! Control frames and reserved opcodes -/

theorem pend_other (p : List UInt8) (l : List Out) : pend p (l.map Seen.other) = p ∧ texts p (l.map Seen.other) = [] := by
  induction l with
  | nil => exact ⟨rfl, rfl⟩
  | cons x l ih => exact ih

theorem handleClose_other (sc : Bool) (o : Endian.Order) (a : Nat) (data : List UInt8) :
    seen (handleClose sc o a data) = (handleClose sc o a data).map Seen.other := by
  have : ∀ x ∈ handleClose sc o a data, seen1 x = [.other x] := by
    unfold handleClose
    intro x hx
    simp only at hx
    generalize (if data.length ≥ 2 then Endian.betoh o 2 (Endian.ofMem o (data.take 2)) else 1000) = st at hx
    generalize (if data.length ≥ 2 then data.length - 2 else data.length) = len at hx
    split at hx
    · rw [List.mem_singleton] at hx; subst hx; rfl
    · split at hx
      · rw [List.mem_singleton] at hx; subst hx; rfl
      · have hreply : ∀ (st : Nat) (r : List UInt8), x ∈ Out.control 8 data :: (if sc = true then [Out.closed] else [Out.closeReply st r]) →
            seen1 x = [.other x] := by
          intro st r h
          cases sc <;> simp at h <;> rcases h with rfl | rfl <;> rfl
        split at hx
        · split at hx
          · rw [List.mem_singleton] at hx; subst hx; rfl
          · split at hx
            · rw [List.mem_singleton] at hx; subst hx; rfl
            · split at hx
              · rw [List.mem_singleton] at hx; subst hx; rfl
              · exact hreply _ _ hx
        · exact hreply _ _ hx
  generalize handleClose sc o a data = l at this ⊢
  induction l with
  | nil => rfl
  | cons x l ih =>
    rw [List.map_cons, ← ih (fun y hy => this y (List.mem_cons_of_mem _ hy))]
    show seen1 x ++ seen l = _
    rw [this x List.mem_cons_self]
    rfl

theorem inv_cont {sc rx p} (h : Inv sc rx p) (c : Cont) (h1 : c ≠ .payload) (h2 : c ≠ .mask) (h3 : c ≠ .len16) (h4 : c ≠ .len64) :
    Inv sc { rx with cont := c } p :=
  ⟨h.self, h.frag, h.utf8, fun hc => absurd hc h1, fun hc => by rcases hc with hc | hc; exact absurd hc h1; exact absurd hc h2,
    fun hc => by rcases hc with hc | hc; exact absurd hc h3; exact absurd hc h4, h.live⟩

section
variable (o : Endian.Order) (sc : Bool)

/-- What is to be seen of a close frame. -/
def onClose (pl : List UInt8) : List Seen := seen (handleClose sc o 0 pl)

theorem failed_good (rx : Rx) (p tail : List UInt8) (hi : Inv sc rx p) (before : List UInt8 → List Seen)
    (hb : ∀ fut, before fut = [.other (.fail 1002)]) :
    Res sc p before (fun fut => expect (onClose o sc) (failed rx 1002).1 (tail ++ fut)) (failed rx 1002).1 (failed rx 1002).2 := by
  refine .good ?_ (inv_cont hi _ (by simp) (by simp) (by simp) (by simp)) ?_
  · intro fut; rw [hb]; rfl
  · intro t ht; cases ht

theorem handleFrame_ctl (rx : Rx) (p : List UInt8) (hi : Inv sc rx p) (hk : rx.opcode ≥ 8)
    (data tail : List UInt8) (hd : data.length = rx.remaining) (hl : data.length ≤ 125) :
    Res sc p (fun fut => payE (onClose o sc) rx (data ++ (tail ++ fut)))
      (fun fut => expect (onClose o sc) (handleFrame o rx data).1 (tail ++ fut)) (handleFrame o rx data).1 (handleFrame o rx data).2 := by
  have hum : (if rx.isServer = true then unmaskAt rx.addr rx.mask data else data) = um rx data := by
    unfold um; rw [unmaskAt_eq]
  have hlen : (um rx data).length = data.length := um_length _ _
  have e1 : ∀ fut, (data ++ fut).take rx.remaining = data := by intro fut; rw [← hd, List.take_left]
  have e2 : ∀ fut, (data ++ fut).drop rx.remaining = fut := by intro fut; rw [← hd, List.drop_left]
  have e3 : ∀ fut : List UInt8, rx.remaining ≤ (data ++ fut).length := by intro fut; rw [List.length_append]; omega
  have hpay : ∀ fut, payE (onClose o sc) rx (data ++ fut) = goOn (onClose o sc) rx.isServer
      (if rx.opcode = 8 then (onClose o sc (um rx data), none)
      else if rx.opcode = 9 then ([.other (.control 9 (um rx data)), .other (.pong (um rx data))], some (rx.frag, fut))
      else if rx.opcode = 10 then ([.other (.control 10 (um rx data))], some (rx.frag, fut))
      else ([.other (.fail 1002)], none)) := by
    intro fut
    unfold payE
    rw [if_pos hk]
    simp only [e1, e2, e3, decide_true, Bool.true_eq_false, if_false]
  simp only [hpay]
  unfold handleFrame
  simp only [hum]
  rw [if_neg (by omega), if_neg (by omega)]
  by_cases h9 : rx.opcode = 9
  · simp only [h9, if_true]
    unfold handlePing
    rw [if_neg (by omega)]
    refine .good ?_ (inv_cont hi _ (by simp) (by simp) (by simp) (by simp)) ?_
    · intro fut; rfl
    · intro t ht; cases ht
  · rw [if_neg h9]
    by_cases h10 : rx.opcode = 10
    · simp only [h10, if_true]
      unfold handlePong
      refine .good ?_ (inv_cont hi _ (by simp) (by simp) (by simp) (by simp)) ?_
      · intro fut; rfl
      · intro t ht; cases ht
    · rw [if_neg h10]
      by_cases h8 : rx.opcode = 8
      · simp only [if_pos h8]
        rw [show handleClose rx.selfClose o rx.addr (um rx data) = handleClose sc o 0 (um rx data) by rw [hi.self, handleClose_addr]]
        have ho := handleClose_other sc o 0 (um rx data)
        refine .good ?_ ?_ ?_ ?_
        rotate_right
        · intro b n hlast
          rw [ho] at hlast
          obtain ⟨x, -, hx⟩ := List.mem_map.mp (List.mem_of_getLast? hlast)
          cases hx
        · intro fut
          exact List.append_nil _
        · rw [ho, (pend_other _ _).1]
          exact inv_cont hi .stopped (by simp) (by simp) (by simp) (by simp)
        · rw [ho, (pend_other _ _).2]
          intro t ht; cases ht
      · rw [if_neg h8]
        apply failed_good o sc rx p tail hi
        intro fut
        rw [if_neg h8, if_neg h9, if_neg h10]
        rfl

theorem handleFrame_reserved (rx : Rx) (p : List UInt8) (hi : Inv sc rx p) (hk : rx.opcode < 8) (h1 : rx.opcode ≠ 1) (h2 : rx.opcode ≠ 2)
    (data tail : List UInt8) (hd : rx.remaining = 0 ∨ data ≠ []) (r : Nat) (hr : r = rx.remaining + data.length) :
    Res sc p (fun fut => payE (onClose o sc) { rx with remaining := r } (data ++ (tail ++ fut)))
      (fun fut => expect (onClose o sc) (handleFrame o rx data).1 (tail ++ fut)) (handleFrame o rx data).1 (handleFrame o rx data).2 := by
  unfold handleFrame
  simp only
  rw [if_neg h2, if_neg h1, if_neg (by omega), if_neg (by omega), if_neg (by omega)]
  apply failed_good o sc rx p tail hi
  intro fut
  unfold payE
  simp only
  rw [if_neg (by omega), if_neg (by omega), if_pos]
  · rfl
  · rcases hd with h | h
    · by_cases hd' : data = []
      · left; subst hd'; simp at hr; omega
      · right; simp [hd']
    · right; simp [h]

/-- The complete handling of a piece of payload. -/
theorem handleFrame_any (rx : Rx) (p : List UInt8) (hi : Inv sc rx p)
    (data tail : List UInt8) (r : Nat) (hc : rx.opcode ≥ 8 → data.length = rx.remaining ∧ data.length ≤ 125 ∧ r = rx.remaining)
    (hd : rx.opcode < 8 → (rx.remaining = 0 ∨ data ≠ []) ∧ r = rx.remaining + data.length ∧ (rx.remaining ≠ 0 → tail = [])) :
    Res sc p (fun fut => payE (onClose o sc) { rx with remaining := r } (data ++ (tail ++ fut)))
      (fun fut => expect (onClose o sc) (handleFrame o rx data).1 (tail ++ fut)) (handleFrame o rx data).1 (handleFrame o rx data).2 := by
  by_cases hk : rx.opcode ≥ 8
  · obtain ⟨a, b, c⟩ := hc hk
    subst c
    exact handleFrame_ctl o sc rx p hi hk data tail a b
  · obtain ⟨a, b, ht⟩ := hd (by omega)
    by_cases h12 : rx.opcode = 1 ∨ rx.opcode = 2
    · subst b
      exact handleFrame_data (onClose o sc) o sc rx p hi h12 data tail ht a
    · exact handleFrame_reserved o sc rx p hi (by omega) (by omega) (by omega) data tail a r b

theorem handleFrame_cont (rx : Rx) (c : Cont) (data : List UInt8) : handleFrame o { rx with cont := c } data = handleFrame o rx data := by
  rfl

theorem readPayload_spec (rx : Rx) (p : List UInt8) (hi : Inv sc { rx with cont := .header } p) (hl : rx.opcode ≥ 8 → rx.remaining ≤ 125) (tail : List UInt8) :
    Res sc p (fun fut => payE (onClose o sc) rx (tail ++ fut)) (fun fut => expect (onClose o sc) (readPayload o rx).1 (tail ++ fut)) (readPayload o rx).1 (readPayload o rx).2 := by
  unfold readPayload
  by_cases h0 : rx.remaining > 0
  · rw [if_pos h0]
    refine .good (fun fut => rfl) ?_ (by intro t ht; cases ht)
    exact ⟨hi.self, hi.frag, hi.utf8, fun _ => h0, fun _ h => hl h, fun hc => (by rcases hc with hc | hc <;> cases hc), hi.live⟩
  · rw [if_neg h0]
    have hz : rx.remaining = 0 := by omega
    rw [← handleFrame_cont o rx .header []]
    have := handleFrame_any o sc { rx with cont := .header } p hi [] tail 0 (fun _ => ⟨hz.symm, by simp, hz.symm⟩) (fun _ => ⟨.inl hz, by simp [hz], fun h => absurd hz h⟩)
    have e : ∀ fut, payE (onClose o sc) { rx with cont := .header, remaining := 0 } ([] ++ fut) = payE (onClose o sc) rx fut := by
      intro fut
      rw [← hz]
      rfl
    simp only [e] at this
    exact this

theorem getMaskOrPayload_spec (rx : Rx) (p : List UInt8) (hi : Inv sc { rx with cont := .header } p) (hl : rx.opcode ≥ 8 → rx.remaining ≤ 125)
    (tail : List UInt8) :
    Res sc p (fun fut => maskE (onClose o sc) rx (tail ++ fut)) (fun fut => expect (onClose o sc) (getMaskOrPayload o rx).1 (tail ++ fut))
      (getMaskOrPayload o rx).1 (getMaskOrPayload o rx).2 := by
  unfold getMaskOrPayload
  by_cases hs : rx.isServer = true
  · rw [if_pos hs]
    refine .good (fun fut => by unfold maskE; rw [if_pos hs]; rfl) ?_ (by intro t ht; cases ht)
    exact ⟨hi.self, hi.frag, hi.utf8, fun h => (by cases h), fun _ h => hl h, fun hc => (by rcases hc with hc | hc <;> cases hc), hi.live⟩
  · rw [if_neg hs]
    have e : ∀ fut, maskE (onClose o sc) rx fut = payE (onClose o sc) rx fut := by
      intro fut; unfold maskE; rw [if_neg hs]
    simp only [e]
    exact readPayload_spec o sc rx p hi hl tail

theorem getLength_spec (rx : Rx) (p : List UInt8) (hi : Inv sc { rx with cont := .header } p) (hl : rx.opcode < 8) (n : Nat) (buf : List UInt8)
    (hn : n ≤ buf.length) :
    Res sc p (fun fut => lenE (onClose o sc) n rx (buf ++ fut)) (fun fut => expect (onClose o sc) (getLength o rx (buf.take n)).1 (buf.drop n ++ fut))
      (getLength o rx (buf.take n)).1 (getLength o rx (buf.take n)).2 := by
  unfold getLength
  simp only
  rw [betoh_ofMem o (buf.take n) _ rfl]
  have e : ∀ fut, lenE (onClose o sc) n rx (buf ++ fut) =
      maskE (onClose o sc) { rx with remaining := beNat (buf.take n), frameLength := beNat (buf.take n) } (buf.drop n ++ fut) := by
    intro fut
    unfold lenE
    rw [if_neg (by rw [List.length_append]; omega), List.take_append_of_le_length hn, List.drop_append_of_le_length hn]
  simp only [e]
  exact getMaskOrPayload_spec o sc { rx with remaining := beNat (buf.take n), frameLength := beNat (buf.take n) } p
    ⟨hi.self, hi.frag, hi.utf8, fun h => (by cases h), fun h => (by rcases h with h | h <;> cases h), fun h => (by rcases h with h | h <;> cases h), hi.live⟩
    (fun h => absurd h (by show ¬ rx.opcode ≥ 8; omega)) _

theorem getFirstLength_spec (rx : Rx) (p : List UInt8) (hi : Inv sc { rx with cont := .header } p) (b1 : UInt8) (tail : List UInt8) :
    Res sc p (fun fut => firstE (onClose o sc) rx (b1 :: tail ++ fut)) (fun fut => expect (onClose o sc) (getFirstLength o rx b1).1 (tail ++ fut))
      (getFirstLength o rx b1).1 (getFirstLength o rx b1).2 := by
  unfold getFirstLength
  simp only [byte_fin, byte_len, List.cons_append, firstE]
  have hfail : ∀ before : List UInt8 → List Seen, (∀ fut, before fut = [.other (.fail 1002)]) →
      Res sc p before (fun fut => expect (onClose o sc) (failed rx 1002).1 (tail ++ fut)) (failed rx 1002).1 (failed rx 1002).2 := by
    intro before hb
    exact failed_good o sc { rx with cont := .header } p tail hi before hb
  by_cases hm : decide (b1.toNat ≥ 128) ≠ rx.isServer
  · rw [if_pos hm]
    apply hfail
    intro fut
    rw [if_pos]
    unfold badSecond
    simp [bne_iff_ne]
    left
    simpa using hm
  · rw [if_neg hm]
    rw [Decidable.not_not] at hm
    have h127 : b1.toNat % 128 < 128 := Nat.mod_lt _ (by omega)
    by_cases h125 : b1.toNat % 128 ≤ 125
    · rw [if_pos h125]
      have hb : badSecond rx.isServer rx.opcode b1 = false := by
        unfold badSecond; rw [hm]; simp; omega
      simp only [hb, Bool.false_eq_true, if_false]
      simp only [if_pos (show b1.toNat % 128 < 126 by omega)]
      exact getMaskOrPayload_spec o sc { rx with remaining := b1.toNat % 128, frameLength := b1.toNat % 128 } p
        ⟨hi.self, hi.frag, hi.utf8, fun h => (by cases h), fun h => (by rcases h with h | h <;> cases h), fun h => (by rcases h with h | h <;> cases h), hi.live⟩
        (fun _ => h125) _
    · rw [if_neg h125]
      by_cases hc : isControl rx.opcode = true
      · rw [if_pos hc]
        apply hfail
        intro fut
        rw [if_pos]
        unfold badSecond
        unfold isControl at hc
        simp only [decide_eq_true_eq] at hc
        simp [hc]
        right; omega
      · rw [if_neg hc]
        have ho : rx.opcode < 8 := by
          unfold isControl at hc; simp at hc; exact hc
        have hb : badSecond rx.isServer rx.opcode b1 = false := by
          unfold badSecond; rw [hm]; simp; omega
        simp only [hb, Bool.false_eq_true, if_false]
        simp only [if_neg (show ¬ b1.toNat % 128 < 126 by omega)]
        by_cases h126 : b1.toNat % 128 = 126
        · simp only [h126, if_true]
          refine .good (fun fut => rfl) ?_ (by intro t ht; cases ht)
          exact ⟨hi.self, hi.frag, hi.utf8, fun h => (by cases h), fun h => (by rcases h with h | h <;> cases h), fun _ => ho, hi.live⟩
        · simp only [h126, if_false]
          refine .good (fun fut => rfl) ?_ (by intro t ht; cases ht)
          exact ⟨hi.self, hi.frag, hi.utf8, fun h => (by cases h), fun h => (by rcases h with h | h <;> cases h), fun _ => ho, hi.live⟩

theorem handleFin_spec (rx : Rx) (hf : rx.frag < 8) (b0 : UInt8) (hfin : rx.fin = decide (b0.toNat ≥ 128)) (hr : b0.toNat / 16 % 8 = 0) :
    handleFin rx b0 = if badFirst rx.frag b0 = true then none else some { rx with opcode := kindOf rx.frag b0, frag := fragOf rx.frag b0 } := by
  unfold handleFin badFirst
  simp only [byte_opcode, hr, hfin, isControl, kindOf, fragOf]
  have h16 : b0.toNat % 16 < 16 := Nat.mod_lt _ (by omega)
  by_cases h1 : b0.toNat ≥ 128 <;> by_cases h2 : b0.toNat % 16 ≥ 8 <;> by_cases h3 : b0.toNat % 16 = 0 <;> by_cases h4 : rx.frag = 0 <;>
    first
    | omega
    | (simp [h1, h2, h3, h4]; try omega)

theorem getHeader_spec (rx : Rx) (p : List UInt8) (hi : Inv sc { rx with cont := .header } p) (b0 : UInt8) (tail : List UInt8) :
    Res sc p (fun fut => receive rx.isServer (onClose o sc) rx.frag (b0 :: tail ++ fut)) (fun fut => expect (onClose o sc) (getHeader rx b0).1 (tail ++ fut))
      (getHeader rx b0).1 (getHeader rx b0).2 := by
  have hfail : ∀ rx' : Rx, Inv sc { rx' with cont := .header } p → badFirst rx.frag b0 = true → 
      Res sc p (fun fut => receive rx.isServer (onClose o sc) rx.frag (b0 :: tail ++ fut))
        (fun fut => expect (onClose o sc) (failed rx' 1002).1 (tail ++ fut)) (failed rx' 1002).1 (failed rx' 1002).2 := by
    intro rx' hi' hb
    refine failed_good o sc { rx' with cont := .header } p tail hi' _ ?_
    intro fut
    exact receive_bad _ _ _ _ _ hb
  unfold getHeader
  simp only [byte_fin]
  by_cases hr : b0 &&& 0x70 ≠ 0
  · rw [if_pos hr]
    refine hfail _ ⟨hi.self, hi.frag, hi.utf8, fun h => (by cases h), fun h => (by rcases h with h | h <;> cases h), fun h => (by rcases h with h | h <;> cases h), hi.live⟩ ?_
    rw [byte_rsv] at hr
    unfold badFirst
    simp [hr]
  · rw [if_neg hr]
    rw [byte_rsv, Decidable.not_not] at hr
    have hfs := handleFin_spec { rx with fin := decide (b0.toNat ≥ 128) } hi.frag b0 rfl hr
    rw [hfs]
    by_cases hb : badFirst rx.frag b0 = true
    · simp only [hb, if_true]
      exact hfail _ ⟨hi.self, hi.frag, hi.utf8, fun h => (by cases h), fun h => (by rcases h with h | h <;> cases h), fun h => (by rcases h with h | h <;> cases h), hi.live⟩ hb
    · have hbs := badFirst_spec rx.frag b0 (by simpa using hb)
      simp only [hb, if_false]
      refine .good ?_ ?_ (by intro t ht; cases ht)
      · intro fut
        exact (receive_cons (onClose o sc) rx.isServer rx.frag hi.frag b0 (tail ++ fut)
          { rx with fin := decide (b0.toNat ≥ 128), opcode := kindOf rx.frag b0, frag := fragOf rx.frag b0, cont := .firstLen } rfl rfl rfl rfl
          (by simpa using hb)).symm
      · refine ⟨hi.self, ?_, hi.utf8, fun h => (by cases h), fun h => (by rcases h with h | h <;> cases h), fun h => (by rcases h with h | h <;> cases h), hi.live⟩
        have := hi.frag
        show fragOf rx.frag b0 < 8
        unfold fragOf kindOf
        split
        · exact this
        · split
          · omega
          · split
            · exact this
            · omega
end

end Cio.WsRecv
