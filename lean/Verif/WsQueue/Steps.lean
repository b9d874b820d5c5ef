import Verif.WsQueue.Inv
/-
The invariant is kept by the functions of the model.
-/
namespace Cio.WsQueue

theorem Base.pop {w : World} {k : Kind} {q : List Kind} (b : Base w (k :: q) []) : Base (popped w k q) q (ticketOf (w.jobs k).handler) where
  core := b.core.pop
  cnt := by
    intro t
    have := b.cnt t
    rw [qT_cons, List.count_append] at this
    rw [qT_popped]
    show (completedT w.log).count t + _ + _ = if t < w.tickets then 1 else 0
    rw [← this]
    simp
    omega
  ord := b.ord
  c1 := b.c1
  c2 := b.c2
  succ := b.succ

theorem Base.complete {w : World} {q : List Kind} {t : Nat} (b : Base w q [t]) (r : Res) (ch : List Elem) (hr : r = .success → t ∈ sentT w.log) : Base (log w (.completed t r ch)) q [] where
  core := b.core.congr rfl rfl rfl rfl id id
  cnt := by
    intro x
    have := b.cnt x
    show (t :: completedT w.log).count x + _ + (qT w q).count x = if x < w.tickets then 1 else 0
    rw [← this]
    simp only [List.count_cons, List.count_nil]
    omega
  ord := b.ord.congr rfl (Nat.le_refl _)
  c1 := b.c1
  c2 := b.c2
  succ := by
    intro x hx
    have hx : (x, .success) ∈ (t, r) :: completedR w.log := hx
    rcases List.mem_cons.mp hx with h | h
    · injection h with h1 h2; subst h1; exact hr h2.symm
    · exact b.succ x h

theorem handleError_inv {w : World} {st : List Item} {q : List Kind} (b : Base w q []) (hub : w.ub = false) (hc : w.closedByError = false)
    (h0 : w.closes = 0) (hst : CalmSt st) (hk : w.selfClose = false → .close ∉ sentK w.log)
    (hs : w.selfClose = false → ∀ k ∈ somes st, k ≠ .close ∧ w.reading = false) : Inv (handleError w st) := by
  unfold handleError
  rw [hc]
  simp only [Bool.false_eq_true, if_false]
  by_cases hsc : w.selfClose = true
  · exact .inl ⟨rfl, hsc⟩
  · have hsc : w.selfClose = false := by simpa using hsc
    refine .inr (.inr ⟨hub, ?_⟩)
    exact Phase.errAbort (w := log { w with closedByError := true } .onError) false st q
      (b.congr rfl rfl rfl rfl (fun _ => rfl) id rfl rfl rfl rfl) rfl hsc h0 hst (hk hsc) (hs hsc)

/-- The frame of the first job is with the transport, or is just being written. -/
structure Flight (w : World) (st : List Item) (k : Kind) (q : List Kind) : Prop where
  base : Base w (k :: q) []
  ub : w.ub = false
  calm : CalmSt st
  nosome : somes st = []
  bs : w.bsHandler = (w.jobs k).streamHandler
  sent : ∀ t ∈ ticketOf (w.jobs k).handler, t ∈ sentT w.log
  cbe : w.closedByError = false
  open_ : w.closes = 0
  ord : Ord w (qT w q)
  c1 : (sentK w.log).count .close + q.count .close ≤ 1
  c2 : w.selfClose = false → .close ∈ sentK w.log → k = .close
  tok : Tok w (k :: q)

theorem Flight.later {w : World} {st : List Item} {k : Kind} {q : List Kind} (f : Flight w st k q) (hp : w.pend = true) : Calm w st (k :: q) q :=
  { base := f.base, calm := f.calm, cbe := f.cbe, open_ := f.open_, send := Sending.flight k q hp f.nosome f.bs f.sent, ord := f.ord, c1 := f.c1,
    c2 := fun h1 h2 => ⟨hp, by rw [f.c2 h1 h2]; rfl⟩, tok := f.tok }

theorem onWritten_eq {w : World} {k : Kind} {q : List Kind} (c : Core w (k :: q)) (res : Res) (st : List Item) :
    onWritten w res st =
      let w' := popped w k q
      match w.bsHandler with
      | .messageWritten =>
        if (w.jobs k).handler = .null then fault ⟨w', st⟩
        else callHandler w' (w.jobs k).handler res (((w.jobs k).wbh.getD []).drop 1) (.sendNext q.head? :: st)
      | .closeWritten => ⟨w', .abort :: .callClose res :: st⟩
      | .closeWrittenImmediate => ⟨w', .abort :: .callClose res :: .closeNow :: st⟩
      | .responseCloseWritten => ⟨w', .abort :: .closeNow :: st⟩ := by
  unfold onWritten
  rw [dequeue_cons c]
  simp only [popped, setJob_self]
  rfl

/-- After `write_jobs_popfront`, if the next job is then sent by `message_written`. -/
theorem popped_calm {w : World} {st : List Item} {k : Kind} {q : List Kind} (f : Flight w st k q) (hp : w.pend = false) (hk : k ≠ .close)
    (w' : World) (i : Item) (hi : isCalm i = true) (hi' : someOf i = none)
    (b : Base w' q []) (hj : w'.jobs = (popped w k q).jobs) (h1 : w'.closedByError = w.closedByError) (h2 : w'.closes = w.closes)
    (h3 : w'.pend = w.pend) (h4 : sentT w'.log = sentT w.log) (h5 : sentK w'.log = sentK w.log) (h6 : w'.tickets = w.tickets)
    (h7 : w'.selfClose = w.selfClose) (ht : Tok w' q) : Calm w' (i :: .sendNext q.head? :: st) q q where
  base := b
  calm := CalmSt.cons hi (CalmSt.cons rfl f.calm)
  cbe := by rw [h1]; exact f.cbe
  open_ := by rw [h2]; exact f.open_
  send := by
    cases q with
    | nil =>
      refine .idle (by rw [h3]; exact hp) ?_
      rw [somes_cons_none hi', somes_cons_none rfl]
      exact f.nosome
    | cons a r =>
      refine .wait a r (by rw [h3]; exact hp) ?_
      rw [somes_cons_none hi']
      show somes (.sendNext (some a) :: st) = _
      rw [somes_cons_some, f.nosome]
  ord := by
    have e : qT w' q = qT w q := by
      rw [qT_congr (w := popped w k q) (w' := w') (by rw [hj]; intros; rfl), qT_popped]
    rw [e]
    exact f.ord.congr h4 (by omega)
  c1 := by rw [h5]; exact f.c1
  c2 := by
    rw [h5, h7]
    intro ha hb
    exact absurd (f.c2 ha hb) hk
  tok := ht

theorem popped_handler (w : World) (k : Kind) (q : List Kind) (x : Kind) : ((popped w k q).jobs x).handler = (w.jobs x).handler := by
  simp only [popped, setJob_jobs]
  by_cases h : x = k
  · rw [if_pos h, h]
  · rw [if_neg h]

theorem Tok.pop {w : World} {k : Kind} {q : List Kind} (t : Tok w (k :: q)) : Tok (popped w k q) q where
  t1 := t.t1
  t2 := by intro h1 h2; rw [popped_handler] at h2; exact t.t2 (List.mem_cons_of_mem _ h1) h2
  t3 := by
    intro h1 h2
    rw [popped_handler] at h2 ⊢
    have := t.t3 (List.mem_cons_of_mem _ h1) h2
    exact ⟨this.1, this.2.1, fun h => this.2.2 ⟨List.mem_cons_of_mem _ h.1, h.2⟩⟩

theorem message_completed {w : World} {st : List Item} {k : Kind} {q : List Kind} (f : Flight w st k q) (hp : w.pend = false) (hk : k ≠ .close)
    (hn : (w.jobs k).handler ≠ .null) (hpong : (w.jobs k).handler = .pongWritten → k = .pong) (res : Res) (ch : List Elem) :
    Inv (callHandler (popped w k q) (w.jobs k).handler res ch (.sendNext q.head? :: st)) := by
  have hb := f.base.pop
  cases hh : (w.jobs k).handler with
  | null => exact absurd hh hn
  | stale => exact absurd hh (f.base.core.ok k List.mem_cons_self).not_stale
  | user t =>
    rw [hh] at hb
    refine .inr (.inr ⟨f.ub, ?_⟩)
    refine Phase.calm _ q q ?_
    refine popped_calm f hp hk _ (.user (res ≠ .success)) rfl rfl (hb.complete res ch (fun _ => f.sent t (by rw [hh]; simp [ticketOf]))) rfl rfl rfl rfl rfl rfl rfl rfl ?_
    exact ⟨f.tok.pop.t1, f.tok.pop.t2, f.tok.pop.t3⟩
  | pongWritten =>
    rw [hh] at hb
    have hkp := hpong hh
    subst hkp
    have t2 := f.tok.t2 List.mem_cons_self hh
    have nc : ∀ l, q.head? = some l → l = .close → w.selfClose = true := by
      rintro l hl rfl
      have hc : .close ∈ q := List.mem_of_head? hl
      rcases f.base.core.ok .close (List.mem_cons_of_mem _ hc) with h | h | h
      · exact h.2.2
      · exact absurd ⟨List.mem_cons_self, hh⟩ (f.tok.t3 (List.mem_cons_of_mem _ hc) h.1).2.2
      · rw [f.cbe] at h; cases h.2
    simp only [callHandler, pongWritten]
    by_cases hr : res = .success
    · rw [if_neg (not_not_intro hr)]
      refine .inr (.inr ⟨f.ub, ?_⟩)
      refine Phase.calm _ q q ?_
      have hnp : .pong ∉ q := (List.nodup_cons.mp f.base.core.nodup).1
      refine popped_calm f hp hk _ .input rfl rfl ?_ rfl rfl rfl rfl rfl rfl rfl rfl ?_
      · exact hb.congr rfl rfl rfl rfl id id rfl rfl rfl rfl
      · refine ⟨fun _ => t2.2, fun h => absurd h hnp, ?_⟩
        intro h1 h2
        exfalso
        have h2' : (w.jobs .close).handler = .null := by rw [← popped_handler w .pong q]; exact h2
        exact (f.tok.t3 (List.mem_cons_of_mem _ h1) h2').2.2 ⟨List.mem_cons_self, hh⟩
    · rw [if_pos hr]
      refine handleError_inv hb f.ub f.cbe f.open_ (CalmSt.cons rfl f.calm) ?_ ?_
      · intro h1 h2
        exact hk (f.c2 h1 h2)
      · intro h1 l hl
        cases hq : q.head? with
        | none => rw [hq, somes_cons_none rfl, f.nosome] at hl; cases hl
        | some a =>
          rw [hq, somes_cons_some, f.nosome] at hl
          simp at hl
          subst hl
          refine ⟨fun h => ?_, t2.1⟩
          have := nc l hq h
          rw [show w.selfClose = false from h1] at this
          cases this

/-- The frame of the first job has been written. -/
theorem onWritten_inv {w : World} {st : List Item} {k : Kind} {q : List Kind} (f : Flight w st k q) (hp : w.pend = false) (res : Res) :
    Inv (onWritten w res st) := by
  rw [onWritten_eq f.base.core]
  have ho := f.base.core.ok k List.mem_cons_self
  have hb := f.base.pop
  have hnc : k ∉ q := (List.nodup_cons.mp f.base.core.nodup).1
  rw [f.bs]
  by_cases hk : k = .close
  · subst hk
    rcases ho with ⟨⟨t, ht⟩, hs, hsc⟩ | ⟨hh, hs, hsc⟩ | ⟨-, he⟩
    · rw [hs]
      refine .inr (.inr ⟨f.ub, ?_⟩)
      refine Phase.closeAbort false res st q t ?_ ?_ hnc f.cbe hsc f.open_ hp f.calm f.nosome f.tok.t1 (f.sent t (by rw [ht]; simp [ticketOf]))
      · rw [ht] at hb; exact hb
      · rw [popped_handler]; exact ht
    · rw [hs]
      refine .inr (.inr ⟨f.ub, ?_⟩)
      refine Phase.respAbort false st q ?_ hnc f.cbe hsc f.open_ f.calm ?_
      · rw [hh] at hb; exact hb
      · rw [popped_handler]
        have := (f.tok.t3 List.mem_cons_self hh).2.2
        exact fun h => this ⟨List.mem_cons_of_mem _ h.1, h.2⟩
    · rw [f.cbe] at he; cases he
  · have hs : (w.jobs k).streamHandler = .messageWritten := by
      cases k
      · exact ho.2
      · exact ho.2
      · exact ho.2
      · exact absurd rfl hk
    have hn : (w.jobs k).handler ≠ .null := by
      cases k
      · obtain ⟨t, h⟩ := ho.1; rw [h]; simp
      · obtain ⟨t, h⟩ := ho.1; rw [h]; simp
      · rcases ho.1 with ⟨t, h⟩ | h <;> rw [h] <;> simp
      · exact absurd rfl hk
    have hpg : (w.jobs k).handler = .pongWritten → k = .pong := by
      intro h
      cases k
      · obtain ⟨t, h'⟩ := ho.1; rw [h'] at h; cases h
      · obtain ⟨t, h'⟩ := ho.1; rw [h'] at h; cases h
      · rfl
      · exact absurd rfl hk
    rw [hs]
    simp only [hn, if_false]
    exact message_completed f hp hk hn hpg res _

/-- The first job is about to be sent. -/
structure Ready (w : World) (st : List Item) (k : Kind) (q : List Kind) : Prop where
  base : Base w (k :: q) []
  ub : w.ub = false
  calm : CalmSt st
  nosome : somes st = []
  cbe : w.closedByError = false
  open_ : w.closes = 0
  pend : w.pend = false
  ord : Ord w (qT w (k :: q))
  c1 : (sentK w.log).count .close + (k :: q).count .close ≤ 1
  c2 : w.selfClose = false → .close ∉ sentK w.log
  tok : Tok w (k :: q)

theorem Core.setWbh {w : World} {q : List Kind} (c : Core w q) (k : Kind) (hk : k ∈ q) (ch : List Elem) (bs : StreamHandler) :
    Core { setJob w k { w.jobs k with wbh := some ch } with bsHandler := bs } q where
  first := c.first
  last := c.last
  linked := c.linked.congr (by intro x _; simp only [setJob_jobs]; by_cases h : x = k <;> simp [h])
  nodup := c.nodup
  busy := by
    intro x hx
    simp only [setJob_jobs]
    by_cases h : x = k
    · simp [h]
    · simp [h]; exact c.busy x hx
  free := by
    intro x hx hc
    simp only [setJob_jobs]
    have h : x ≠ k := fun h => hx (h ▸ hk)
    rw [if_neg h]
    exact c.free x hx hc
  ok := by
    intro x hx
    refine (c.ok x hx).congr ?_ ?_ rfl id <;> simp only [setJob_jobs] <;> by_cases h : x = k <;> simp [h]
  timer := c.timer

theorem ticket_sent (h : Handler) (l : List Ev) (k : Kind) (c : Bool) (o : Nat) (f : Bool) (a : Nat) (p : List Elem) :
    (sentT (.sent k h c o f a p :: l)).reverse = (sentT l).reverse ++ ticketOf h := by
  cases h <;> simp [sentT, ticketOf]

theorem sentBase {w : World} {st : List Item} {k : Kind} {q : List Kind} (r : Ready w st k q) (ch : List Elem) :
    Base { setJob w k { w.jobs k with wbh := some ch } with bsHandler := (w.jobs k).streamHandler } (k :: q) [] := by
  refine ⟨r.base.core.setWbh k List.mem_cons_self ch _, ?_, r.base.ord, r.base.c1, r.base.c2, r.base.succ⟩
  intro t
  rw [qT_congr (w := w)]
  · exact r.base.cnt t
  · intro x _
    simp only [setJob_jobs]; by_cases h : x = k <;> simp [h]

theorem sent_flight {w : World} {st : List Item} {k : Kind} {q : List Kind} (r : Ready w st k q) (ch : List Elem) (pend : Bool)
    (c : Bool) (o : Nat) (f : Bool) (a : Nat) (p : List Elem) :
    Flight (log { setJob w k { w.jobs k with wbh := some ch } with bsHandler := (w.jobs k).streamHandler, pend := pend }
      (.sent k (w.jobs k).handler c o f a p)) st k q := by
  have hq : ∀ x, ((setJob w k { w.jobs k with wbh := some ch }).jobs x).handler = (w.jobs x).handler := by
    intro x; simp only [setJob_jobs]; by_cases h : x = k <;> simp [h]
  have hqT : ∀ l, qT (log { setJob w k { w.jobs k with wbh := some ch } with bsHandler := (w.jobs k).streamHandler, pend := pend }
      (.sent k (w.jobs k).handler c o f a p)) l = qT w l := by
    intro l; exact qT_congr (w := w) (fun x _ => hq x)
  have hord := r.ord
  rw [qT_cons] at hord
  have hc1 : (k :: sentK w.log).count .close + q.count .close ≤ 1 := by
    have := r.c1
    rw [List.count_cons] at this ⊢
    omega
  refine { base := ⟨?_, ?_, ?_, ?_, ?_, ?_⟩, ub := r.ub, calm := r.calm, nosome := r.nosome, bs := ?_, sent := ?_, cbe := r.cbe, open_ := r.open_, ord := ?_, c1 := hc1, c2 := ?_, tok := ?_ }
  · exact (sentBase r ch).core.congr rfl rfl rfl rfl id id
  · intro t; rw [hqT]; exact r.base.cnt t
  · refine Ord.nil (u := qT w q) ?_
    unfold Ord
    show List.Pairwise _ ((sentT (_ :: w.log)).reverse ++ _) ∧ ∀ t ∈ (sentT (_ :: w.log)).reverse ++ _, t < w.tickets
    rw [ticket_sent, List.append_assoc]
    exact hord
  · show (k :: sentK w.log).count .close ≤ 1
    omega
  · intro h1 h2
    show (k :: sentK w.log).head? = _
    have h2 : .close ∈ k :: sentK w.log := h2
    rcases List.mem_cons.mp h2 with h | h
    · rw [← h]; rfl
    · exact absurd h (r.c2 h1)
  · intro t ht
    have := r.base.succ t ht
    show t ∈ sentT (.sent k (w.jobs k).handler c o f a p :: w.log)
    rw [← List.mem_reverse, ticket_sent]
    exact List.mem_append_left _ (List.mem_reverse.mpr this)
  · simp [log, setJob]
  · intro t ht
    show t ∈ sentT (.sent k (w.jobs k).handler c o f a p :: w.log)
    rw [← List.mem_reverse, ticket_sent]
    have ht : t ∈ ticketOf ((setJob w k { w.jobs k with wbh := some ch }).jobs k).handler := ht
    rw [hq] at ht
    exact List.mem_append_right _ ht
  · rw [hqT]
    unfold Ord
    show List.Pairwise _ ((sentT (_ :: w.log)).reverse ++ _) ∧ ∀ t ∈ (sentT (_ :: w.log)).reverse ++ _, t < w.tickets
    rw [ticket_sent, List.append_assoc]
    exact hord
  · intro h1 h2
    have h2 : .close ∈ k :: sentK w.log := h2
    rcases List.mem_cons.mp h2 with h | h
    · exact h.symm
    · exact absurd h (r.c2 h1)
  · refine ⟨r.tok.t1, ?_, ?_⟩
    · intro h1 h2; exact r.tok.t2 h1 ((hq _).symm.trans h2)
    · intro h1 h2
      have := r.tok.t3 h1 ((hq _).symm.trans h2)
      exact ⟨this.1, this.2.1, fun h => this.2.2 ⟨h.1, (hq _).symm.trans h.2⟩⟩

/-- `send_frame` for the first job, and what follows if it fails. -/
theorem sendFrame_inv {w : World} {st : List Item} {k : Kind} {q : List Kind} (r : Ready w st k q) (len : Nat) (tr : Outcome) :
    Inv (let (s, ok) := sendFrame w k len tr st; if ok then s else handleError s.w s.stack) := by
  have hb := r.base.core.busy k List.mem_cons_self
  cases hw : (w.jobs k).wbh with
  | none => exact absurd hw hb
  | some chain =>
    simp only [sendFrame, hw]
    cases tr with
    | now res =>
      simp only [if_true]
      have f := sent_flight r (if (w.jobs k).cont = true then chain else .hdr :: chain) w.pend (w.jobs k).cont (w.jobs k).opcode (w.jobs k).lastFrame
        (if (w.jobs k).cont = true then 0 else len) chain
      exact onWritten_inv f r.pend res
    | later =>
      simp only [if_true]
      have f := sent_flight r (if (w.jobs k).cont = true then chain else .hdr :: chain) true (w.jobs k).cont (w.jobs k).opcode (w.jobs k).lastFrame
        (if (w.jobs k).cont = true then 0 else len) chain
      exact .inr (.inr ⟨r.ub, Phase.calm _ _ _ (f.later rfl)⟩)
    | refuse =>
      simp only [Bool.false_eq_true, if_false]
      refine handleError_inv (sentBase r _) r.ub r.cbe r.open_ r.calm r.c2 ?_
      intro _ x hx
      rw [r.nosome] at hx
      cases hx

end Cio.WsQueue
