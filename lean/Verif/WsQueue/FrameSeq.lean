import Verif.WsQueue.ContentStep
/-
The frames given to the transport form a sequence RFC 6455 allows.
-/
namespace Cio.WsQueue

/-- A message frame or further chunk: ticket, further chunk or not, opcode, fin. -/
abbrev Msg := Nat × Bool × Nat × Bool

/-- The message frames accepted, oldest first. -/
def accM : List Ev → List Msg
  | [] => []
  | .accepted t .message _ c o f _ :: l => accM l ++ [(t, c, o, f)]
  | _ :: l => accM l

/-- The message frames sent, oldest first. -/
def sentM : List Ev → List Msg
  | [] => []
  | .sent .message (.user t) c o f _ _ :: l => sentM l ++ [(t, c, o, f)]
  | _ :: l => sentM l

/-- The message frames sent before a close frame, oldest first. -/
def sentMBC : List Ev → List Msg
  | [] => []
  | .sent .message (.user t) c o f _ _ :: l => if .close ∈ sentK l then sentMBC l else sentMBC l ++ [(t, c, o, f)]
  | _ :: l => sentMBC l

/-- The rule of RFC 6455 section 5.4: `true`: no message in progress. -/
def fragStep (st : Option Bool) (m : Msg) : Option Bool :=
  st.bind fun idle => if m.2.1 then some idle else if idle then if m.2.2.1 = 1 ∨ m.2.2.1 = 2 then some m.2.2.2 else none
    else if m.2.2.1 = 0 then some m.2.2.2 else none
def fragAfter (l : List Msg) : Option Bool := l.foldl fragStep (some true)

def Done (w : World) : Prop := w.closedByError = true ∨ .close ∈ sentK w.log

/-- The message accepted and not yet sent. -/
def pendM (w : World) : List Msg :=
  match (w.jobs .message).handler, (w.jobs .message).wbh with
  | .user t, some _ => if t ∈ sentT w.log then [] else [(t, (w.jobs .message).cont, (w.jobs .message).opcode, (w.jobs .message).lastFrame)]
  | _, _ => []

def opOf : Kind → Nat
  | .message => 0
  | .ping => 9
  | .pong => 10
  | .close => 8

structure L (w : World) : Prop where
  sh : ∀ k, k ≠ .close → (w.jobs k).streamHandler = .messageWritten
  bs : w.bsHandler = .messageWritten ∨ Done w
  mt : Done w ∨ accM w.log = sentM w.log ++ pendM w
  pf : sentMBC w.log <+: accM w.log
  hd : (w.jobs .message).wbh ≠ none → ∃ t, (w.jobs .message).handler = .user t
  op : ∀ k, k ≠ .message → (w.jobs k).wbh ≠ none → (w.jobs k).opcode = opOf k ∧ (w.jobs k).lastFrame = true ∧ total ((w.jobs k).wbh.getD []) ≤ 125
  fr : fragAfter (accM w.log) = some w.fragmentedWrite
  ev : ∀ k h c o f a p, .sent k h c o f a p ∈ w.log → k ≠ .message → c = false ∧ o = opOf k ∧ f = true ∧ a = total p ∧ a ≤ 125
  um : ∀ h c o f a p, .sent .message h c o f a p ∈ w.log → ∃ t, h = .user t

def LS (s : State) : Prop := L s.w ∧ (.abort ∈ s.stack → Done s.w)

theorem sentMBC_eq {l : List Ev} (h : .close ∉ sentK l) : sentMBC l = sentM l := by
  induction l with
  | nil => rfl
  | cons e l ih =>
    cases e with
    | sent k hd c o f a p =>
      have h' : .close ∉ sentK l := fun hm => h (List.mem_cons_of_mem _ hm)
      cases k <;> cases hd <;> simp only [sentMBC, sentM, ih h', if_neg h']
    | _ => exact ih h

theorem sentK_cons (k : Kind) (h : Handler) (c : Bool) (o : Nat) (f : Bool) (a : Nat) (p : List Elem) (l : List Ev) :
    sentK (.sent k h c o f a p :: l) = k :: sentK l := rfl

/-- Nothing of interest has changed. -/
theorem L.same {w w' : World} (h : L w) (hj : w'.jobs = w.jobs) (hl : w'.log = w.log) (hb : w'.bsHandler = w.bsHandler)
    (hf : w'.fragmentedWrite = w.fragmentedWrite) (he : w.closedByError = true → w'.closedByError = true) : L w' := by
  have hd : Done w → Done w' := fun h => h.imp he (by rw [hl]; exact id)
  have hp : pendM w' = pendM w := by unfold pendM; rw [hj, hl]
  refine ⟨?_, ?_, ?_, ?_, ?_, ?_, ?_, ?_, ?_⟩
  · rw [hj]; exact h.sh
  · rw [hb]; exact h.bs.imp id hd
  · rw [hl, hp]; exact h.mt.imp hd id
  · rw [hl]; exact h.pf
  · rw [hj]; exact h.hd
  · rw [hj]; exact h.op
  · rw [hl, hf]; exact h.fr
  · rw [hl]; exact h.ev
  · rw [hl]; exact h.um

/-- A further event that is not an acceptance or a frame. -/
theorem L.event {w : World} (h : L w) (e : Ev) (h1 : ∀ l, accM (e :: l) = accM l) (h2 : ∀ l, sentM (e :: l) = sentM l) (h3 : ∀ l, sentMBC (e :: l) = sentMBC l)
    (h4 : ∀ l, sentK (e :: l) = sentK l) (h5 : ∀ l, sentT (e :: l) = sentT l) (h6 : ∀ k hd c o f a p, Ev.sent k hd c o f a p ≠ e) : L (log w e) := by
  have hd : Done w → Done (log w e) := fun h => h.imp id (by intro hm; show Kind.close ∈ sentK (e :: w.log); rw [h4]; exact hm)
  have hp : pendM (log w e) = pendM w := by
    unfold pendM
    show (match (w.jobs .message).handler, (w.jobs .message).wbh with
      | .user t, some _ => if t ∈ sentT (e :: w.log) then [] else [(t, (w.jobs .message).cont, (w.jobs .message).opcode, (w.jobs .message).lastFrame)]
      | _, _ => []) = _
    rw [h5]
  refine ⟨h.sh, h.bs.imp id hd, ?_, ?_, h.hd, h.op, ?_, ?_, ?_⟩
  · rw [hp]; show Done _ ∨ accM (e :: w.log) = sentM (e :: w.log) ++ _; rw [h1, h2]; exact h.mt.imp hd id
  · show sentMBC (e :: w.log) <+: accM (e :: w.log); rw [h1, h3]; exact h.pf
  · show fragAfter (accM (e :: w.log)) = _; rw [h1]; exact h.fr
  · intro k hd' c o f a p hm
    rcases List.mem_cons.mp hm with hm | hm
    · exact absurd hm (h6 _ _ _ _ _ _ _)
    · exact h.ev k hd' c o f a p hm
  · intro hd' c o f a p hm
    rcases List.mem_cons.mp hm with hm | hm
    · exact absurd hm (h6 _ _ _ _ _ _ _)
    · exact h.um hd' c o f a p hm

theorem L.err {w : World} (h : L w) : L { w with closedByError := true } := h.same rfl rfl rfl rfl (fun _ => rfl)

theorem L.handleError {w : World} (h : L { w with closedByError := true }) (st : List Item) : LS (handleError w st) := by
  unfold WsQueue.handleError
  split
  · rename_i hc; exact ⟨h.same rfl rfl rfl rfl (fun _ => hc), fun _ => .inl hc⟩
  · exact ⟨h.event .onError (fun _ => rfl) (fun _ => rfl) (fun _ => rfl) (fun _ => rfl) (fun _ => rfl) (fun _ _ _ _ _ _ _ h => by cases h), fun _ => .inl rfl⟩

theorem L.callHandler {w : World} (h : L w) (hd : Handler) (r : Res) (ch : List Elem) (st : List Item) (ha : .abort ∈ st → Done w) :
    LS (callHandler w hd r ch st) := by
  cases hd with
  | null => exact ⟨h, ha⟩
  | stale => exact ⟨h.same rfl rfl rfl rfl id, ha⟩
  | user t =>
    refine ⟨h.event _ (fun _ => rfl) (fun _ => rfl) (fun _ => rfl) (fun _ => rfl) (fun _ => rfl) (fun _ _ _ _ _ _ _ h => by cases h), fun hm => ?_⟩
    rcases List.mem_cons.mp hm with hm | hm
    · cases hm
    · exact ha hm
  | pongWritten =>
    simp only [WsQueue.callHandler, pongWritten]
    split
    · exact h.err.handleError st
    · refine ⟨h.same rfl rfl rfl rfl id, fun hm => ?_⟩
      rcases List.mem_cons.mp hm with hm | hm
      · cases hm
      · exact ha hm

theorem L.drop {w : World} (h : L w) (k : Kind) (f : Option Kind) (hs : k = .message → Done w ∨ ∀ t, (w.jobs .message).handler = .user t → t ∈ sentT w.log) :
    L (setJob { w with first := f } k { w.jobs k with wbh := none }) := by
  refine ⟨?_, h.bs, ?_, h.pf, ?_, ?_, h.fr, h.ev, h.um⟩
  · intro x hx; simp only [setJob_jobs]; by_cases e : x = k
    · subst e; simp; exact h.sh x hx
    · simp [e]; exact h.sh x hx
  · rcases h.mt with hm | hm
    · exact .inl hm
    · by_cases e : k = .message
      · rcases hs e with hs | hs
        · exact .inl hs
        · right
          have hp : pendM w = [] := by
            unfold pendM
            cases hh : (w.jobs .message).handler with
            | user t =>
              cases (w.jobs .message).wbh with
              | none => rfl
              | some c => simp only; rw [if_pos (hs t hh)]
            | _ => rfl
          have hp' : pendM (setJob { w with first := f } k { w.jobs k with wbh := none }) = [] := by
            unfold pendM
            rw [e, setJob_self]
            simp only
            split
            · rename_i h; cases h
            · rfl
          rw [hp']
          rw [hp] at hm
          exact hm
      · right
        have hp' : pendM (setJob { w with first := f } k { w.jobs k with wbh := none }) = pendM w := by
          unfold pendM
          rw [setJob_other _ _ _ _ (fun h => e h.symm)]
          rfl
        rw [hp']
        exact hm
  · by_cases e : Kind.message = k
    · subst e; rw [setJob_self]; intro hn; exact absurd rfl hn
    · rw [setJob_other _ _ _ _ e]; exact h.hd
  · intro x hx
    by_cases e : x = k
    · subst e; rw [setJob_self]; intro hn; exact absurd rfl hn
    · rw [setJob_other _ _ _ _ e]; exact h.op x hx

theorem L.onWritten {w : World} (h : L w) (hh : Head w) (r : Res) (st : List Item) (ha : .abort ∈ st → Done w) : LS (onWritten w r st) := by
  cases hd : dequeue w with
  | none => unfold WsQueue.onWritten; rw [hd]; exact ⟨h.same rfl rfl rfl rfl id, ha⟩
  | some p =>
    obtain ⟨k, w1⟩ := p
    obtain ⟨hf, f, rfl⟩ := dequeue_form hd
    rw [onWritten_dequeue hd]
    obtain ⟨hb, hs⟩ := hh k hf
    have hL := h.drop k f (by
      rintro rfl
      rcases h.bs with hb | hb
      · exact .inr (fun t ht => hs t hb ht)
      · exact .inl hb)
    have hD : Done w → Done (setJob { w with first := f } k { w.jobs k with wbh := none }) := id
    generalize setJob { w with first := f } k { w.jobs k with wbh := none } = W at hL hD ⊢
    have hbs := h.bs
    cases hbs' : w.bsHandler with
    | messageWritten =>
      simp only
      split
      · exact ⟨hL.same rfl rfl rfl rfl id, fun hm => hD (ha hm)⟩
      · refine L.callHandler hL _ _ _ _ (fun hm => ?_)
        rcases List.mem_cons.mp hm with hm | hm
        · cases hm
        · exact hD (ha hm)
    | closeWritten => rw [hbs'] at hbs; exact ⟨hL, fun _ => hD (hbs.resolve_left (by simp))⟩
    | closeWrittenImmediate => rw [hbs'] at hbs; exact ⟨hL, fun _ => hD (hbs.resolve_left (by simp))⟩
    | responseCloseWritten => rw [hbs'] at hbs; exact ⟨hL, fun _ => hD (hbs.resolve_left (by simp))⟩

theorem rechain_fields (w : World) (k x : Kind) (chain : List Elem) :
    ((rechain w k chain).jobs x).opcode = (w.jobs x).opcode ∧ ((rechain w k chain).jobs x).lastFrame = (w.jobs x).lastFrame ∧
      ((rechain w k chain).jobs x).streamHandler = (w.jobs x).streamHandler := by
  by_cases e : x = k
  · subst e; rw [rechain_self]; simp
  · rw [rechain_other _ _ _ _ e]; simp

theorem accM_sent (k : Kind) (h : Handler) (c : Bool) (o : Nat) (f : Bool) (a : Nat) (p : List Elem) (l : List Ev) : accM (.sent k h c o f a p :: l) = accM l := rfl
theorem sentM_other {k : Kind} (hk : k ≠ .message) (h : Handler) (c : Bool) (o : Nat) (f : Bool) (a : Nat) (p : List Elem) (l : List Ev) :
    sentM (.sent k h c o f a p :: l) = sentM l ∧ sentMBC (.sent k h c o f a p :: l) = sentMBC l := by
  cases k
  · exact absurd rfl hk
  · exact ⟨rfl, rfl⟩
  · exact ⟨rfl, rfl⟩
  · exact ⟨rfl, rfl⟩

theorem total_ite (b : Bool) (chain : List Elem) : total (if b then chain else .hdr :: chain) = total chain := by
  cases b <;> simp [total]

/-- A frame is given to the transport. -/
theorem L.sent {w : World} (h : L w) (K : K w) (k : Kind) (chain : List Elem) (hw : (w.jobs k).wbh = some chain) (a : Nat)
    (hcb : ∀ t, (w.jobs k).handler = .user t → w.closedByError = false ∧ t ∉ sentT w.log) (ha : k ≠ .message → a = total chain) (ch' : List Elem)
    (hch : total ch' = total chain) :
    L (log (rechain w k ch') (.sent k (w.jobs k).handler (w.jobs k).cont (w.jobs k).opcode (w.jobs k).lastFrame a chain)) := by
  have hfr : (log (rechain w k ch') (.sent k (w.jobs k).handler (w.jobs k).cont (w.jobs k).opcode (w.jobs k).lastFrame a chain)).jobs = (rechain w k ch').jobs := rfl
  have hlg : (log (rechain w k ch') (.sent k (w.jobs k).handler (w.jobs k).cont (w.jobs k).opcode (w.jobs k).lastFrame a chain)).log =
    .sent k (w.jobs k).handler (w.jobs k).cont (w.jobs k).opcode (w.jobs k).lastFrame a chain :: w.log := rfl
  have hD : Done w → Done (log (rechain w k ch') (.sent k (w.jobs k).handler (w.jobs k).cont (w.jobs k).opcode (w.jobs k).lastFrame a chain)) :=
    fun h => h.imp id (fun hm => List.mem_cons_of_mem _ hm)
  have hev : ∀ k' h' c o f a' p, Ev.sent k' h' c o f a' p ∈
      Ev.sent k (w.jobs k).handler (w.jobs k).cont (w.jobs k).opcode (w.jobs k).lastFrame a chain :: w.log → k' ≠ .message → c = false ∧ o = opOf k' ∧ f = true ∧ a' = total p ∧ a' ≤ 125 := by
    intro k' h' c o f a' p hm hk'
    rcases List.mem_cons.mp hm with hm | hm
    · cases hm
      obtain ⟨e1, e2, e3⟩ := h.op k hk' (by rw [hw]; simp)
      rw [hw] at e3
      exact ⟨K.nc k hk', e1, e2, ha hk', by rw [ha hk']; exact e3⟩
    · exact h.ev k' h' c o f a' p hm hk'
  refine ⟨?_, ?_, ?_, ?_, ?_, ?_, ?_, ?_, ?_⟩
  · intro x hx; rw [hfr, (rechain_fields w k x ch').2.2]; exact h.sh x hx
  · show (w.jobs k).streamHandler = _ ∨ _
    by_cases e : k = .close
    · right; right; rw [hlg, e]; exact List.mem_cons_self
    · exact .inl (h.sh k e)
  · by_cases hdone : Done w
    · exact .inl (hD hdone)
    · have hm := h.mt.resolve_left hdone
      by_cases e : k = .message
      · subst e
        right
        obtain ⟨t, ht⟩ := h.hd (by rw [hw]; simp)
        have hn := (hcb t ht).2
        have hp : pendM w = [(t, (w.jobs .message).cont, (w.jobs .message).opcode, (w.jobs .message).lastFrame)] := by
          unfold pendM; rw [ht, hw]; simp only; rw [if_neg hn]
        have hp' : pendM (log (rechain w .message ch') (.sent .message (w.jobs .message).handler (w.jobs .message).cont (w.jobs .message).opcode (w.jobs .message).lastFrame a chain)) = [] := by
          unfold pendM; rw [hfr, hlg, rechain_handler, ht, rechain_self]
          simp only
          rw [if_pos (by simp [sentT])]
        rw [hp', hlg, accM_sent, hm, hp, ht]
        simp [sentM]
      · by_cases ec : k = .close
        · left; right; rw [hlg, ec]; exact List.mem_cons_self
        · right
          rw [hlg, accM_sent, (sentM_other e _ _ _ _ _ _ _).1, hm]
          congr 1
          unfold pendM
          rw [hfr, hlg, rechain_other _ _ _ _ (fun h => e h.symm)]
          cases hh : (w.jobs .message).handler with
          | user t =>
            cases hwm : (w.jobs .message).wbh with
            | none => rfl
            | some c =>
              simp only
              have : (t ∈ sentT (.sent k (w.jobs k).handler (w.jobs k).cont (w.jobs k).opcode (w.jobs k).lastFrame a chain :: w.log)) ↔ t ∈ sentT w.log := by
                rw [sentT_cons, List.mem_append]
                refine ⟨fun hm => ?_, .inr⟩
                rcases hm with hm | hm
                · exfalso
                  have hk : (w.jobs k).handler = .user t := by
                    cases hh : (w.jobs k).handler with
                    | user t' => rw [hh] at hm; simp [ticketOf] at hm; rw [hm]
                    | _ => rw [hh] at hm; simp [ticketOf] at hm
                  obtain ⟨p', fl', h3', -⟩ := K.jobs k t chain hk hw
                  obtain ⟨p, fl, h3, -⟩ := K.jobs .message t c hh hwm
                  exact e (accepted_unique K.lg h3' h3).1
                · exact hm
              simp only [this]
          | _ => rfl
  · rw [hlg, accM_sent]
    by_cases e : k = .message
    · subst e
      obtain ⟨t, ht⟩ := h.hd (by rw [hw]; simp)
      obtain ⟨hcb, hn⟩ := hcb t ht
      rw [ht]
      simp only [sentMBC]
      split
      · exact h.pf
      · rename_i hc
        have hdone : ¬ Done w := fun hd => hd.elim (by rw [hcb]; simp) hc
        have hm := h.mt.resolve_left hdone
        have hp : pendM w = [(t, (w.jobs .message).cont, (w.jobs .message).opcode, (w.jobs .message).lastFrame)] := by
          unfold pendM; rw [ht, hw]; simp only; rw [if_neg hn]
        rw [hm, hp, sentMBC_eq hc]
        exact List.prefix_refl _
    · rw [(sentM_other e _ _ _ _ _ _ _).2]; exact h.pf
  · intro _
    rw [hfr, rechain_handler]
    by_cases e : k = .message
    · subst e; exact h.hd (by rw [hw]; simp)
    · rename_i hx
      rw [hfr, rechain_other _ _ _ _ (fun h => e h.symm)] at hx
      exact h.hd hx
  · intro x hx hn
    rw [hfr, (rechain_fields w k x ch').1, (rechain_fields w k x ch').2.1]
    by_cases e : x = k
    · subst e
      have := h.op x hx (by rw [hw]; simp)
      rw [hw] at this
      refine ⟨this.1, this.2.1, ?_⟩
      rw [rechain_self]
      show total ch' ≤ 125
      rw [hch]; exact this.2.2
    · rw [hfr, rechain_other _ _ _ _ e] at hn
      rw [rechain_other _ _ _ _ e]; exact h.op x hx hn
  · rw [hlg, accM_sent]; exact h.fr
  · rw [hlg]; exact hev
  · rw [hlg]
    intro h' c o f a' p hm
    rcases List.mem_cons.mp hm with hm | hm
    · injection hm with e1 e2
      subst e1
      rw [e2]
      exact h.hd (by rw [hw]; simp)
    · exact h.um h' c o f a' p hm

theorem L.refused {w : World} (h : L w) (k : Kind) (chain : List Elem) (hw : (w.jobs k).wbh = some chain) (ch' : List Elem)
    (hch : total ch' = total chain) : L { rechain w k ch' with closedByError := true } := by
  refine ⟨?_, .inr (.inl rfl), .inl (.inl rfl), h.pf, ?_, ?_, h.fr, h.ev, h.um⟩
  · intro x hx; show ((rechain w k ch').jobs x).streamHandler = _; rw [(rechain_fields w k x ch').2.2]; exact h.sh x hx
  · intro hx
    show ∃ t, ((rechain w k ch').jobs .message).handler = _
    rw [rechain_handler]
    by_cases e : k = .message
    · subst e; exact h.hd (by rw [hw]; simp)
    · have hx : ((rechain w k ch').jobs .message).wbh ≠ none := hx
      rw [rechain_other _ _ _ _ (fun h => e h.symm)] at hx
      exact h.hd hx
  · intro x hx hn
    have hn : ((rechain w k ch').jobs x).wbh ≠ none := hn
    show ((rechain w k ch').jobs x).opcode = _ ∧ ((rechain w k ch').jobs x).lastFrame = _ ∧ total (((rechain w k ch').jobs x).wbh.getD []) ≤ 125
    rw [(rechain_fields w k x ch').1, (rechain_fields w k x ch').2.1]
    by_cases e : x = k
    · subst e
      have := h.op x hx (by rw [hw]; simp)
      rw [hw] at this
      refine ⟨this.1, this.2.1, ?_⟩
      rw [rechain_self]
      show total ch' ≤ 125
      rw [hch]; exact this.2.2
    · rw [rechain_other _ _ _ _ e] at hn
      rw [rechain_other _ _ _ _ e]; exact h.op x hx hn

/-- `send_frame`. -/
theorem L.sendFrame {w : World} {k : Kind} (h : L w) (K : K w) (hf : w.first = some k)
    (hcb : ∀ t, (w.jobs k).handler = .user t → w.closedByError = false ∧ t ∉ sentT w.log) (len : Nat) (tr : Outcome) (st : List Item)
    (ha : .abort ∈ st → Done w) (hl : k ≠ .message → ∀ chain, (w.jobs k).wbh = some chain → len = total chain) :
    ((sendFrame w k len tr st).2 = true → LS (sendFrame w k len tr st).1) ∧
      ((sendFrame w k len tr st).2 = false → L { (sendFrame w k len tr st).1.w with closedByError := true }) := by
  cases hw : (w.jobs k).wbh with
  | none =>
    have e : WsQueue.sendFrame w k len tr st = (fault ⟨w, st⟩, true) := by unfold WsQueue.sendFrame; rw [hw]
    rw [e]
    exact ⟨fun _ => ⟨h.same rfl rfl rfl rfl id, ha⟩, fun h => (by cases h)⟩
  | some chain =>
    rw [sendFrame_eq w k chain hw]
    have hs := h.sent K k chain hw (if (w.jobs k).cont then 0 else len) hcb (by
      intro hk
      rw [K.nc k hk, hl hk chain hw]; rfl) (if (w.jobs k).cont then chain else .hdr :: chain) (total_ite _ _)
    have hD : Done w → Done (log (rechain w k (if (w.jobs k).cont then chain else .hdr :: chain))
      (.sent k (w.jobs k).handler (w.jobs k).cont (w.jobs k).opcode (w.jobs k).lastFrame (if (w.jobs k).cont then 0 else len) chain)) :=
      fun h => h.imp id (fun hm => List.mem_cons_of_mem _ hm)
    cases tr with
    | now r =>
      refine ⟨fun _ => ?_, fun h => (by cases h)⟩
      refine L.onWritten hs ?_ r st (fun hm => hD (ha hm))
      intro k' hk'
      have hk' : w.first = some k' := hk'
      rw [hf] at hk'
      injection hk' with e
      subst e
      refine ⟨?_, ?_⟩
      · show ((rechain w k _).jobs k).wbh ≠ none
        rw [rechain_self]; simp
      · intro t _ hh
        have hh : ((rechain w k (if (w.jobs k).cont then chain else .hdr :: chain)).jobs k).handler = .user t := hh
        rw [rechain_handler] at hh
        show t ∈ sentT (_ :: w.log)
        rw [sentT_cons, hh]
        simp [ticketOf]
    | later => exact ⟨fun _ => ⟨hs.same rfl rfl rfl rfl id, fun hm => hD (ha hm)⟩, fun h => (by cases h)⟩
    | refuse => exact ⟨fun h => (by cases h), fun _ => h.refused k chain hw _ (total_ite _ _)⟩

theorem L.enqueue {w : World} {k : Kind} (h : L w) (K : K w) (hcb : ∀ t, (w.jobs k).handler = .user t → w.closedByError = false ∧ t ∉ sentT w.log)
    (len : Nat) (tr : Outcome) (st : List Item) (ha : .abort ∈ st → Done w) (hl : k ≠ .message → ∀ chain, (w.jobs k).wbh = some chain → len = total chain) :
    LS (enqueue w k len tr st).1 := by
  unfold WsQueue.enqueue
  split
  · have hs := L.sendFrame (w := ({ w with first := some k, last := some k } : World)) (k := k) (L.same (w := w) h rfl rfl rfl rfl id)
      (K.same id rfl rfl rfl) rfl hcb len tr st ha hl
    generalize WsQueue.sendFrame { w with first := some k, last := some k } k len tr st = p at hs
    obtain ⟨s, ok⟩ := p
    cases ok
    · exact L.handleError (hs.2 rfl) _
    · exact hs.1 rfl
  · split
    · exact ⟨h.same rfl rfl rfl rfl id, ha⟩
    · rename_i l _
      refine ⟨⟨?_, h.bs, ?_, h.pf, ?_, ?_, h.fr, h.ev, h.um⟩, ha⟩
      · intro x hx
        simp only [setJob_jobs]
        by_cases e : x = l
        · subst e; simp; exact h.sh x hx
        · simp [e]; exact h.sh x hx
      · refine h.mt.imp id (fun hm => ?_)
        show accM w.log = sentM w.log ++ _
        rw [hm]
        congr 1
        unfold pendM
        simp only [setJob_jobs]
        by_cases e : Kind.message = l
        · subst e; rfl
        · rw [if_neg e]; rfl
      · simp only [setJob_jobs]
        by_cases e : Kind.message = l
        · subst e; simp; exact h.hd
        · rw [if_neg e]; exact h.hd
      · intro x hx
        simp only [setJob_jobs]
        by_cases e : x = l
        · subst e; simp; exact h.op x hx
        · simp [e]; exact h.op x hx

theorem fragAfter_snoc (l : List Msg) (m : Msg) : fragAfter (l ++ [m]) = fragStep (fragAfter l) m := by
  unfold fragAfter; rw [List.foldl_append]; rfl

/-- A frame of a message is accepted. -/
theorem L.acceptM {w w' : World} (h : L w) (hfree : (w.jobs .message).wbh = none) (hb : w.tickets ∉ sentT w.log) (j : Job) (payload : List Nat) (fl : Nat)
    (hj : w'.jobs = (setJob w .message j).jobs) (hl : w'.log = .accepted w.tickets .message payload j.cont j.opcode j.lastFrame fl :: w.log)
    (he : w'.closedByError = w.closedByError) (hw : j.wbh = some (payload.map .usr)) (hh : j.handler = .user w.tickets) (hbs : w'.bsHandler = w.bsHandler)
    (hsh : j.streamHandler = .messageWritten)
    (hfr : fragStep (some w.fragmentedWrite) (w.tickets, j.cont, j.opcode, j.lastFrame) = some w'.fragmentedWrite) : L w' := by
  have hD : Done w → Done w' := fun h => h.imp (by rw [he]; exact id) (by rw [hl]; exact id)
  have hjm : w'.jobs .message = j := by rw [hj, setJob_self]
  have hjo : ∀ x, x ≠ .message → w'.jobs x = w.jobs x := fun x hx => by rw [hj, setJob_other _ _ _ _ hx]
  refine ⟨?_, ?_, ?_, ?_, ?_, ?_, ?_, ?_, ?_⟩
  · intro x hx
    by_cases e : x = .message
    · subst e; rw [hjm]; exact hsh
    · rw [hjo x e]; exact h.sh x hx
  · rw [hbs]; exact h.bs.imp id hD
  · refine h.mt.imp hD (fun hm => ?_)
    have hp : pendM w = [] := by
      unfold pendM; rw [hfree]
      split
      · rename_i h; cases h
      · rfl
    have hp' : pendM w' = [(w.tickets, j.cont, j.opcode, j.lastFrame)] := by
      unfold pendM; rw [hjm, hh, hw, hl]
      simp only
      rw [if_neg (by exact hb)]
    rw [hp', hl]
    rw [hp, List.append_nil] at hm
    show accM w.log ++ _ = sentM w.log ++ _
    rw [hm]
  · rw [hl]
    exact h.pf.trans (List.prefix_append _ _)
  · intro _; rw [hjm]; exact ⟨_, hh⟩
  · intro x hx; rw [hjo x hx]; exact h.op x hx
  · rw [hl]
    show fragAfter (accM w.log ++ _) = _
    rw [fragAfter_snoc, h.fr, hfr]
  · rw [hl]
    intro k hd c o f a p hm
    rcases List.mem_cons.mp hm with hm | hm
    · cases hm
    · exact h.ev k hd c o f a p hm
  · rw [hl]
    intro hd c o f a p hm
    rcases List.mem_cons.mp hm with hm | hm
    · cases hm
    · exact h.um hd c o f a p hm

/-- A job that is not the message job is filled in; an acceptance may be logged. -/
theorem L.fillO {w w' : World} (h : L w) (k : Kind) (hk : k ≠ .message) (j : Job) (hj : w'.jobs = (setJob w k j).jobs)
    (hl : w'.log = w.log ∨ ∃ t p c o f fl, w'.log = .accepted t k p c o f fl :: w.log) (he : w'.closedByError = w.closedByError)
    (hbs : w'.bsHandler = w.bsHandler) (hsh : k ≠ .close → j.streamHandler = .messageWritten) (hf : w'.fragmentedWrite = w.fragmentedWrite)
    (ho : j.opcode = opOf k ∧ j.lastFrame = true ∧ total (j.wbh.getD []) ≤ 125) : L w' := by
  have h1 : accM w'.log = accM w.log ∧ sentM w'.log = sentM w.log ∧ sentMBC w'.log = sentMBC w.log ∧ sentK w'.log = sentK w.log ∧ sentT w'.log = sentT w.log := by
    rcases hl with hl | ⟨t, p, c, o, f, fl, hl⟩
    · rw [hl]; simp
    · rw [hl]
      refine ⟨?_, rfl, rfl, rfl, rfl⟩
      cases k
      · exact absurd rfl hk
      · rfl
      · rfl
      · rfl
  obtain ⟨e1, e2, e3, e4, e5⟩ := h1
  have hD : Done w → Done w' := fun h => h.imp (by rw [he]; exact id) (by rw [e4]; exact id)
  have hjm : w'.jobs .message = w.jobs .message := by rw [hj, setJob_other _ _ _ _ (fun h => hk h.symm)]
  refine ⟨?_, ?_, ?_, ?_, ?_, ?_, ?_, ?_, ?_⟩
  · intro x hx
    rw [hj, setJob_jobs]
    by_cases e : x = k
    · subst e; rw [if_pos rfl]; exact hsh hx
    · rw [if_neg e]; exact h.sh x hx
  · rw [hbs]; exact h.bs.imp id hD
  · rw [e1, e2]
    refine h.mt.imp hD (fun hm => ?_)
    rw [hm]
    congr 1
    unfold pendM
    rw [hjm, e5]
  · rw [e1, e3]; exact h.pf
  · rw [hjm]; exact h.hd
  · intro x hx hn
    rw [hj, setJob_jobs] at hn ⊢
    by_cases e : x = k
    · subst e; rw [if_pos rfl]; exact ho
    · rw [if_neg e] at hn ⊢; exact h.op x hx hn
  · rw [e1, hf]; exact h.fr
  · intro x hd c o f a p hm
    rcases hl with hl | ⟨t, p', c', o', f', fl, hl⟩
    · rw [hl] at hm; exact h.ev x hd c o f a p hm
    · rw [hl] at hm
      rcases List.mem_cons.mp hm with hm | hm
      · cases hm
      · exact h.ev x hd c o f a p hm
  · intro hd c o f a p hm
    rcases hl with hl | ⟨t, p', c', o', f', fl, hl⟩
    · rw [hl] at hm; exact h.um hd c o f a p hm
    · rw [hl] at hm
      rcases List.mem_cons.mp hm with hm | hm
      · cases hm
      · exact h.um hd c o f a p hm

theorem L.log_refused {w : World} (h : L w) : L (log w .refused) :=
  h.event _ (fun _ => rfl) (fun _ => rfl) (fun _ => rfl) (fun _ => rfl) (fun _ => rfl) (fun _ _ _ _ _ _ _ h => by cases h)

end Cio.WsQueue
