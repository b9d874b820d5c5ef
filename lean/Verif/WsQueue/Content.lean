import Verif.WsQueue.Phases
/-
What is sent is what was accepted, and what is given back is what was given.
-/
namespace Cio.WsQueue

/-- What an event says about those before it (`l`, newest first). -/
def EvOk (e : Ev) (l : List Ev) : Prop :=
  match e with
  | .accepted t _ _ _ _ _ _ => t = (acceptedT l).length
  | .sent k (.user t) cont op fin a p => t ∉ sentT l ∧ ∃ payload fl, .accepted t k payload cont op fin fl ∈ l ∧ p = payload.map .usr ∧
      (cont = true → a = 0) ∧ (cont = false → a = fl ∨ a = payload.sum) ∧ (cont = false → k ≠ .message → a = payload.sum)
  | .completed t r ch => ∀ k payload cont op fin fl, .accepted t k payload cont op fin fl ∈ l → k ≠ .close →
      (t ∉ sentT l → r = .aborted ∧ (ch = payload.map .usr ∨ ch = .hdr :: payload.map .usr)) ∧
      (t ∈ sentT l → r ≠ .aborted → cont = false → ch = payload.map .usr)
  | _ => True

def LogOk : List Ev → Prop
  | [] => True
  | e :: l => EvOk e l ∧ LogOk l

theorem accepted_lt {l : List Ev} (h : LogOk l) {t : Nat} {k p c o f fl} (hm : Ev.accepted t k p c o f fl ∈ l) : t < (acceptedT l).length := by
  induction l with
  | nil => cases hm
  | cons e l ih =>
    rcases List.mem_cons.mp hm with rfl | hm
    · have : t = (acceptedT l).length := h.1
      simp [acceptedT, this]
    · have := ih h.2 hm
      cases e <;> simp only [acceptedT, List.length_cons] <;> omega

theorem accepted_unique {l : List Ev} (h : LogOk l) {t : Nat} {k p c o f fl k' p' c' o' f' fl'} (h1 : Ev.accepted t k p c o f fl ∈ l)
    (h2 : Ev.accepted t k' p' c' o' f' fl' ∈ l) : k = k' ∧ p = p' ∧ c = c' ∧ o = o' ∧ f = f' ∧ fl = fl' := by
  induction l with
  | nil => cases h1
  | cons e l ih =>
    rcases List.mem_cons.mp h1 with e1 | h1
    · rcases List.mem_cons.mp h2 with e2 | h2
      · rw [← e1] at e2; cases e2; simp
      · subst e1
        have h3 : t = (acceptedT l).length := h.1
        have h4 := accepted_lt h.2 (by assumption)
        omega
    · rcases List.mem_cons.mp h2 with e2 | h2
      · subst e2
        have h3 : t = (acceptedT l).length := h.1
        have h4 := accepted_lt h.2 (by assumption)
        omega
      · exact ih h.2 h1 h2

theorem acceptedT_eq {l : List Ev} (h : LogOk l) : acceptedT l = (List.range (acceptedT l).length).reverse := by
  induction l with
  | nil => rfl
  | cons e l ih =>
    have := ih h.2
    cases e with
    | accepted t =>
      have h3 : t = (acceptedT l).length := h.1
      simp only [acceptedT, List.length_cons, List.range_succ, List.reverse_append, List.reverse_cons, List.reverse_nil, List.nil_append]
      rw [← this, h3]; rfl
    | _ => exact this

/-- The job `j` of kind `k`, with the handler of the call with ticket `t`, matches that call. -/
def JobOk (j : Job) (l : List Ev) (cbe : Bool) (k : Kind) (t : Nat) (chain : List Elem) : Prop :=
  ∃ payload fl, .accepted t k payload j.cont j.opcode j.lastFrame fl ∈ l ∧ (k ≠ .message → fl = payload.sum) ∧
    ((t ∉ sentT l ∧ (chain = payload.map .usr ∨ cbe = true ∧ chain = .hdr :: payload.map .usr)) ∨
      (t ∈ sentT l ∧ chain = if j.cont then payload.map .usr else .hdr :: payload.map .usr))

theorem JobOk.mono {j j' : Job} {l l' : List Ev} {cbe cbe' : Bool} {k : Kind} {t : Nat} {chain : List Elem} (h : JobOk j l cbe k t chain)
    (h1 : j'.cont = j.cont) (h2 : j'.opcode = j.opcode) (h3 : j'.lastFrame = j.lastFrame) (hc : cbe = true → cbe' = true)
    (hl : ∀ e ∈ l, e ∈ l') (hs : t ∈ sentT l' ↔ t ∈ sentT l) : JobOk j' l' cbe' k t chain := by
  obtain ⟨p, fl, g1, g2, g3⟩ := h
  refine ⟨p, fl, by rw [h1, h2, h3]; exact hl _ g1, g2, ?_⟩
  rw [h1, hs]
  rcases g3 with ⟨g3, g4⟩ | g3
  · refine .inl ⟨g3, ?_⟩
    rcases g4 with g4 | ⟨g4, g5⟩
    · exact .inl g4
    · exact .inr ⟨hc g4, g5⟩
  · exact .inr g3

structure K (w : World) : Prop where
  lg : LogOk w.log
  tickets : w.tickets = (acceptedT w.log).length
  nc : ∀ k, k ≠ .message → (w.jobs k).cont = false
  jobs : ∀ k t chain, (w.jobs k).handler = .user t → (w.jobs k).wbh = some chain → JobOk (w.jobs k) w.log w.closedByError k t chain
  close : ∀ t, (w.jobs .close).handler = .user t → ∃ p c o f fl, .accepted t .close p c o f fl ∈ w.log

/-- Jobs are dropped or unchanged. -/
theorem K.congr {w w' : World} (h : K w) (he : w.closedByError = true → w'.closedByError = true) (hl : w'.log = w.log) (ht : w'.tickets = w.tickets)
    (hc : ∀ k, k ≠ .message → (w'.jobs k).cont = false)
    (hj : ∀ k t, (w'.jobs k).handler = .user t → (w.jobs k).handler = .user t)
    (hw : ∀ k t chain, (w'.jobs k).handler = .user t → (w'.jobs k).wbh = some chain → (w.jobs k).wbh = some chain ∧ (w'.jobs k).cont = (w.jobs k).cont ∧
      (w'.jobs k).opcode = (w.jobs k).opcode ∧ (w'.jobs k).lastFrame = (w.jobs k).lastFrame) : K w' where
  lg := by rw [hl]; exact h.lg
  tickets := by rw [hl, ht]; exact h.tickets
  nc := hc
  jobs := by
    intro k t chain h1 h2
    obtain ⟨e1, e2, e3, e4⟩ := hw k t chain h1 h2
    exact (h.jobs k t chain (hj k t h1) e1).mono e2 e3 e4 he (by rw [hl]; exact fun _ => id) (by rw [hl])
  close := by
    intro t h1
    rw [hl]
    exact h.close t (hj _ t h1)

theorem K.same {w w' : World} (h : K w) (he : w.closedByError = true → w'.closedByError = true) (hl : w'.log = w.log) (ht : w'.tickets = w.tickets)
    (hj : w'.jobs = w.jobs) : K w' :=
  h.congr he hl ht (by rw [hj]; exact h.nc) (by rw [hj]; exact fun _ _ => id) (by rw [hj]; exact fun _ _ _ _ h => ⟨h, rfl, rfl, rfl⟩)

/-- A further event that is not an acceptance or a frame. -/
theorem K.event {w : World} (h : K w) (e : Ev) (he : EvOk e w.log) (ha : ∀ l, acceptedT (e :: l) = acceptedT l) (hs : ∀ l, sentT (e :: l) = sentT l) : K (log w e) where
  lg := ⟨he, h.lg⟩
  tickets := by show w.tickets = (acceptedT (e :: w.log)).length; rw [ha]; exact h.tickets
  nc := h.nc
  jobs := by
    intro k t chain h1 h2
    exact (h.jobs k t chain h1 h2).mono rfl rfl rfl id (fun _ => List.mem_cons_of_mem _) (by show t ∈ sentT (e :: w.log) ↔ _; rw [hs])
  close := by
    intro t h1
    obtain ⟨p, c, o, f, fl, h2⟩ := h.close t h1
    exact ⟨p, c, o, f, fl, List.mem_cons_of_mem _ h2⟩

theorem K.handleError {w : World} (h : K { w with closedByError := true }) (st : List Item) : K (handleError w st).w := by
  unfold WsQueue.handleError
  split
  · rename_i hc; exact h.same (fun _ => hc) rfl rfl rfl
  · exact h.event .onError trivial (fun _ => rfl) (fun _ => rfl)

theorem K.err {w : World} (h : K w) : K { w with closedByError := true } := h.same (fun _ => rfl) rfl rfl rfl

theorem K.callHandler {w : World} (h : K w) (hd : Handler) (r : Res) (ch : List Elem) (st : List Item)
    (he : ∀ t, hd = .user t → EvOk (.completed t r ch) w.log) : K (callHandler w hd r ch st).w := by
  cases hd with
  | null => exact h
  | stale => exact h.same id rfl rfl rfl
  | user t => exact h.event _ (he t rfl) (fun _ => rfl) (fun _ => rfl)
  | pongWritten =>
    simp only [WsQueue.callHandler, pongWritten]
    split
    · exact h.err.handleError st
    · exact h.same id rfl rfl rfl

theorem K.drop {w : World} (h : K w) (k : Kind) (f : Option Kind) : K (setJob { w with first := f } k { w.jobs k with wbh := none }) := by
  refine h.congr id rfl rfl ?_ ?_ ?_
  · intro x hx; simp only [setJob_jobs]; by_cases e : x = k
    · subst e; simp; exact h.nc x hx
    · simp [e]; exact h.nc x hx
  · intro x t; simp only [setJob_jobs]; by_cases e : x = k
    · subst e; simp
    · simp [e]
  · intro x t chain; simp only [setJob_jobs]; by_cases e : x = k
    · subst e; simp
    · simp [e]

/-- The first job has a buffer, and if its frame is being written by `message_written` it is on the wire. -/
def Head (w : World) : Prop := ∀ k, w.first = some k → (w.jobs k).wbh ≠ none ∧
  ∀ t, w.bsHandler = .messageWritten → (w.jobs k).handler = .user t → t ∈ sentT w.log

theorem onWritten_dequeue {w : World} {k : Kind} {f : Option Kind} (hd : dequeue w = some (k, { w with first := f })) (r : Res) (st : List Item) :
    WsQueue.onWritten w r st =
      match w.bsHandler with
      | .messageWritten =>
        if (w.jobs k).handler = .null then fault ⟨setJob { w with first := f } k { w.jobs k with wbh := none }, st⟩
        else WsQueue.callHandler (setJob { w with first := f } k { w.jobs k with wbh := none }) (w.jobs k).handler r (((w.jobs k).wbh.getD []).drop 1)
          (.sendNext f :: st)
      | .closeWritten => ⟨setJob { w with first := f } k { w.jobs k with wbh := none }, .abort :: .callClose r :: st⟩
      | .closeWrittenImmediate => ⟨setJob { w with first := f } k { w.jobs k with wbh := none }, .abort :: .callClose r :: .closeNow :: st⟩
      | .responseCloseWritten => ⟨setJob { w with first := f } k { w.jobs k with wbh := none }, .abort :: .closeNow :: st⟩ := by
  unfold WsQueue.onWritten
  rw [hd]
  simp only [setJob_self]
  rfl

theorem dequeue_form {w : World} {k : Kind} {w1 : World} (hd : dequeue w = some (k, w1)) : w.first = some k ∧ ∃ f, w1 = { w with first := f } := by
  unfold dequeue at hd
  cases hf : w.first with
  | none => rw [hf] at hd; cases hd
  | some k' =>
    rw [hf] at hd
    injection hd with hd
    injection hd with e1 e2
    subst e1
    exact ⟨rfl, _, e2.symm⟩

theorem K.onWritten {w : World} (h : K w) (hh : Head w) (r : Res) (st : List Item) : K (onWritten w r st).w := by
  cases hd : dequeue w with
  | none => unfold WsQueue.onWritten; rw [hd]; exact h.same id rfl rfl rfl
  | some p =>
    obtain ⟨k, w1⟩ := p
    obtain ⟨hf, f, rfl⟩ := dequeue_form hd
    rw [onWritten_dequeue hd]
    obtain ⟨hb, hs⟩ := hh k hf
    have hK := h.drop k f
    have hlog : (setJob { w with first := f } k { w.jobs k with wbh := none }).log = w.log := rfl
    generalize setJob { w with first := f } k { w.jobs k with wbh := none } = W at hK hlog ⊢
    cases hbs : w.bsHandler with
    | messageWritten =>
      simp only
      split
      · exact hK.same id rfl rfl rfl
      · refine K.callHandler hK _ _ _ _ ?_
        intro t ht
        rw [hlog]
        intro k' p c o fi fl ha hkc
        cases hw : (w.jobs k).wbh with
        | none => exact absurd hw hb
        | some chain =>
          obtain ⟨p', fl', h3, -, h5⟩ := h.jobs k t chain ht hw
          obtain ⟨e1, e2, e3, -⟩ := accepted_unique h.lg ha h3
          subst e2
          have h1 := hs t hbs ht
          refine ⟨fun h0 => absurd h1 h0, fun _ _ hcont => ?_⟩
          rcases h5 with h5 | h5
          · exact absurd h1 h5.1
          · rw [h5.2, ← e3, hcont]; rfl
    | closeWritten => exact hK
    | closeWrittenImmediate => exact hK
    | responseCloseWritten => exact hK

theorem sentT_cons (k : Kind) (h : Handler) (c : Bool) (o : Nat) (f : Bool) (a : Nat) (p : List Elem) (l : List Ev) :
    sentT (.sent k h c o f a p :: l) = ticketOf h ++ sentT l := by
  cases h <;> rfl

/-- The job `k` with another chain. -/
def rechain (w : World) (k : Kind) (chain : List Elem) : World :=
  { setJob w k { w.jobs k with wbh := some chain } with bsHandler := (w.jobs k).streamHandler }

theorem rechain_self (w : World) (k : Kind) (chain : List Elem) : (rechain w k chain).jobs k = { w.jobs k with wbh := some chain } := by simp [rechain, setJob]
theorem rechain_other (w : World) (k x : Kind) (chain : List Elem) (h : x ≠ k) : (rechain w k chain).jobs x = w.jobs x := by simp [rechain, setJob, h]
theorem rechain_handler (w : World) (k x : Kind) (chain : List Elem) : ((rechain w k chain).jobs x).handler = (w.jobs x).handler := by
  by_cases e : x = k
  · subst e; rw [rechain_self]
  · rw [rechain_other _ _ _ _ e]
theorem rechain_cont (w : World) (k x : Kind) (chain : List Elem) : ((rechain w k chain).jobs x).cont = (w.jobs x).cont := by
  by_cases e : x = k
  · subst e; rw [rechain_self]
  · rw [rechain_other _ _ _ _ e]

/-- A frame is given to the transport. -/
theorem K.sent {w : World} (h : K w) (k : Kind) (chain : List Elem) (hw : (w.jobs k).wbh = some chain) (a : Nat)
    (hcb : ∀ t, (w.jobs k).handler = .user t → w.closedByError = false ∧ t ∉ sentT w.log)
    (ha : ∀ t payload fl, (w.jobs k).handler = .user t → .accepted t k payload (w.jobs k).cont (w.jobs k).opcode (w.jobs k).lastFrame fl ∈ w.log →
      chain = payload.map .usr → ((w.jobs k).cont = true → a = 0) ∧ ((w.jobs k).cont = false → a = fl ∨ a = payload.sum)) :
    K (log (rechain w k (if (w.jobs k).cont then chain else .hdr :: chain))
      (.sent k (w.jobs k).handler (w.jobs k).cont (w.jobs k).opcode (w.jobs k).lastFrame a chain)) := by
  have hchain : ∀ t, (w.jobs k).handler = .user t → ∃ p fl, .accepted t k p (w.jobs k).cont (w.jobs k).opcode (w.jobs k).lastFrame fl ∈ w.log ∧
      (k ≠ .message → fl = p.sum) ∧ chain = p.map .usr := by
    intro t hh
    obtain ⟨hcb, hfr⟩ := hcb t hh
    obtain ⟨p, fl, h3, h4, h5⟩ := h.jobs k t chain hh hw
    refine ⟨p, fl, h3, h4, ?_⟩
    rcases h5 with ⟨-, h6⟩ | h5
    · rcases h6 with h6 | h6
      · exact h6
      · rw [hcb] at h6; cases h6.1
    · exact absurd h5.1 hfr
  have hev : EvOk (.sent k (w.jobs k).handler (w.jobs k).cont (w.jobs k).opcode (w.jobs k).lastFrame a chain) w.log := by
    cases hh : (w.jobs k).handler with
    | user t =>
      obtain ⟨p, fl, h3, h4, h6⟩ := hchain t hh
      obtain ⟨g1, g2⟩ := ha t p fl hh h3 h6
      refine ⟨(hcb t hh).2, p, fl, h3, h6, g1, g2, ?_⟩
      intro hc hk
      rcases g2 hc with g | g
      · rw [g, h4 hk]
      · exact g
    | _ => trivial
  refine ⟨⟨hev, h.lg⟩, h.tickets, ?_, ?_, ?_⟩
  · intro x hx
    rw [show (log (rechain w k _) _).jobs = (rechain w k _).jobs from rfl, rechain_cont]
    exact h.nc x hx
  · intro x t ch g1 g2
    have h1 : ((rechain w k (if (w.jobs k).cont then chain else .hdr :: chain)).jobs x).handler = .user t := g1
    have h2 : ((rechain w k (if (w.jobs k).cont then chain else .hdr :: chain)).jobs x).wbh = some ch := g2
    rw [rechain_handler] at h1
    rw [show (log (rechain w k (if (w.jobs k).cont then chain else .hdr :: chain)) _).jobs = (rechain w k (if (w.jobs k).cont then chain else .hdr :: chain)).jobs from rfl]
    by_cases e : x = k
    · subst e
      obtain ⟨p, fl, h3, h4, h6⟩ := hchain t h1
      rw [rechain_self] at h2 ⊢
      injection h2 with h2
      refine ⟨p, fl, List.mem_cons_of_mem _ h3, h4, .inr ⟨?_, ?_⟩⟩
      · show t ∈ sentT (_ :: w.log)
        rw [sentT_cons, h1]
        simp [ticketOf]
      · rw [← h2, h6]
    · rw [rechain_other _ _ _ _ e] at h2 ⊢
      have hj := h.jobs x t ch h1 h2
      refine hj.mono rfl rfl rfl id (fun _ => List.mem_cons_of_mem _) ?_
      show t ∈ sentT (_ :: w.log) ↔ _
      rw [sentT_cons, List.mem_append]
      refine ⟨fun hm => ?_, .inr⟩
      rcases hm with hm | hm
      · -- two jobs with the same ticket would have been accepted as two kinds
        exfalso
        have hk : (w.jobs k).handler = .user t := by
          cases hh : (w.jobs k).handler with
          | user t' => rw [hh] at hm; simp [ticketOf] at hm; rw [hm]
          | _ => rw [hh] at hm; simp [ticketOf] at hm
        obtain ⟨p', fl', h3', -⟩ := hchain t hk
        obtain ⟨p, fl, h3, -⟩ := hj
        exact e (accepted_unique h.lg h3 h3').1
      · exact hm
  · intro t h1
    have h1 : ((rechain w k (if (w.jobs k).cont then chain else .hdr :: chain)).jobs .close).handler = .user t := h1
    rw [rechain_handler] at h1
    obtain ⟨p, c, o, f, fl, h2⟩ := h.close t h1
    exact ⟨p, c, o, f, fl, List.mem_cons_of_mem _ h2⟩

/-- A frame is refused by the transport: the header stays in the chain. -/
theorem K.refused {w : World} (h : K w) (k : Kind) (chain : List Elem) (hw : (w.jobs k).wbh = some chain)
    (hcb : ∀ t, (w.jobs k).handler = .user t → w.closedByError = false ∧ t ∉ sentT w.log) :
    K { rechain w k (if (w.jobs k).cont then chain else .hdr :: chain) with closedByError := true } := by
  refine ⟨h.lg, h.tickets, ?_, ?_, ?_⟩
  · intro x hx
    show ((rechain w k _).jobs x).cont = false
    rw [rechain_cont]
    exact h.nc x hx
  · intro x t ch g1 g2
    have h1 : ((rechain w k (if (w.jobs k).cont then chain else .hdr :: chain)).jobs x).handler = .user t := g1
    have h2 : ((rechain w k (if (w.jobs k).cont then chain else .hdr :: chain)).jobs x).wbh = some ch := g2
    rw [rechain_handler] at h1
    show JobOk ((rechain w k (if (w.jobs k).cont then chain else .hdr :: chain)).jobs x) w.log true x t ch
    by_cases e : x = k
    · subst e
      obtain ⟨p, fl, h3, h4, h5⟩ := h.jobs x t chain h1 hw
      obtain ⟨hcb, hfr⟩ := hcb t h1
      have h6 : chain = p.map .usr := by
        rcases h5 with ⟨-, h6⟩ | h5
        · rcases h6 with h6 | h6
          · exact h6
          · rw [hcb] at h6; cases h6.1
        · exact absurd h5.1 hfr
      rw [rechain_self] at h2 ⊢
      injection h2 with h2
      refine ⟨p, fl, h3, h4, .inl ⟨hfr, ?_⟩⟩
      rw [← h2, h6]
      cases (w.jobs x).cont
      · exact .inr ⟨rfl, rfl⟩
      · exact .inl rfl
    · rw [rechain_other _ _ _ _ e] at h2 ⊢
      exact (h.jobs x t ch h1 h2).mono rfl rfl rfl (fun _ => rfl) (fun _ => id) Iff.rfl
  · intro t h1
    have h1 : ((rechain w k (if (w.jobs k).cont then chain else .hdr :: chain)).jobs .close).handler = .user t := h1
    rw [rechain_handler] at h1
    exact h.close t h1

theorem total_map (p : List Nat) : total (p.map .usr) = p.sum := by
  unfold total
  rw [List.map_map]
  congr 1
  induction p with
  | nil => rfl
  | cons a p ih => simp [ih]

theorem sendFrame_eq (w : World) (k : Kind) (chain : List Elem) (hw : (w.jobs k).wbh = some chain) (len : Nat) (tr : Outcome) (st : List Item) :
    sendFrame w k len tr st =
      let w1 := rechain w k (if (w.jobs k).cont then chain else .hdr :: chain)
      let e := Ev.sent k (w.jobs k).handler (w.jobs k).cont (w.jobs k).opcode (w.jobs k).lastFrame (if (w.jobs k).cont then 0 else len) chain
      match tr with
      | .now res => (WsQueue.onWritten (log w1 e) res st, true)
      | .later => (⟨log { w1 with pend := true } e, st⟩, true)
      | .refuse => (⟨w1, st⟩, false) := by
  unfold sendFrame
  rw [hw]
  rfl

/-- `send_frame`. -/
theorem K.sendFrame {w : World} {k : Kind} (h : K w) (hf : w.first = some k)
    (hcb : ∀ t, (w.jobs k).handler = .user t → w.closedByError = false ∧ t ∉ sentT w.log) (len : Nat) (tr : Outcome) (st : List Item)
    (ha : ∀ t payload fl, (w.jobs k).handler = .user t → .accepted t k payload (w.jobs k).cont (w.jobs k).opcode (w.jobs k).lastFrame fl ∈ w.log →
      (w.jobs k).wbh = some (payload.map .usr) → (w.jobs k).cont = false → len = fl ∨ len = payload.sum) :
    ((sendFrame w k len tr st).2 = true → K (sendFrame w k len tr st).1.w) ∧
      ((sendFrame w k len tr st).2 = false → K { (sendFrame w k len tr st).1.w with closedByError := true }) := by
  cases hw : (w.jobs k).wbh with
  | none =>
    have e : WsQueue.sendFrame w k len tr st = (fault ⟨w, st⟩, true) := by unfold WsQueue.sendFrame; rw [hw]
    rw [e]
    exact ⟨fun _ => h.same id rfl rfl rfl, fun h => (by cases h)⟩
  | some chain =>
    rw [sendFrame_eq w k chain hw]
    have hs := h.sent k chain hw (if (w.jobs k).cont then 0 else len) hcb (by
      intro t payload fl hh hm hc
      refine ⟨fun e => by rw [if_pos e], fun e => ?_⟩
      rw [if_neg (by rw [e]; simp)]
      exact ha t payload fl hh hm (by rw [hw, hc]) e)
    cases tr with
    | now r =>
      refine ⟨fun _ => ?_, fun h => (by cases h)⟩
      refine K.onWritten hs ?_ r st
      intro k' hk'
      have hk' : w.first = some k' := hk'
      rw [hf] at hk'
      injection hk' with e
      subst e
      refine ⟨?_, ?_⟩
      · show ((rechain w k _).jobs k).wbh ≠ none
        rw [rechain_self]; simp
      · intro t _ hh
        have hh : ((rechain w k (if (w.jobs k).cont then chain else .hdr :: chain)).jobs k).handler = .user t := hh
        rw [rechain_handler] at hh
        show t ∈ sentT (_ :: w.log)
        rw [sentT_cons, hh]
        simp [ticketOf]
    | later => exact ⟨fun _ => hs.same id rfl rfl rfl, fun h => (by cases h)⟩
    | refuse => exact ⟨fun h => (by cases h), fun _ => h.refused k chain hw hcb⟩

end Cio.WsQueue
