import Verif.WsQueue.Pong
/-
C21: the invariant of answered pings is kept by each step of an execution that keeps to the rules.
-/
namespace Cio.WsQueue

theorem answers_log (w : World) (e : Ev) (h : ∀ c o f a p, e ≠ .sent .pong .pongWritten c o f a p) : answers (log w e).log = answers w.log :=
  answers_other e w.log h

/-- A job other than the pong is filled in. -/
theorem P.fill {w w' : World} {ps : List Frame} (h : P w ps) (k : Kind) (hk : k ≠ .pong) (hj : ∃ j, w'.jobs = (setJob w k j).jobs)
    (hl : answers w'.log = answers w.log) (he : w'.closedByError = w.closedByError) (hp : w'.pend = w.pend) (hf : w'.first = w.first) : P w' ps := by
  obtain ⟨j, hj⟩ := hj
  exact h.same (by rw [he]; exact id) hl (by rw [hj, setJob_other _ _ _ _ hk.symm]) hp hf

theorem P.doCall {w : World} {ps : List Frame} (h : P w ps) (hp : w.first = none → w.pend = false ∧ w.closedByError = false)
    (hb : ∀ k, w.first = some k → (w.jobs k).wbh ≠ none) (call : Call) (tr : Outcome) (st : List Item) :
    P (doCall w call tr st).w ps := by
  have href : P (log w .refused) ps := h.same id (answers_log _ _ (by intros; simp)) rfl rfl rfl
  have hp' : ∀ k, w.first = none → (w.closedByError = false → w.pend = false) ∧ (w.closedByError = true → k ≠ Kind.pong) := fun k hf => ⟨fun _ => (hp hf).1, fun h => by rw [(hp hf).2] at h; cases h⟩
  cases call with
  | first frameLength payload lastFrame binary =>
    simp only [WsQueue.doCall]
    split
    · exact href
    · refine P.enqueue ?_ ?_ _ _ _ ?_
      · exact h.fill .message (by simp) ⟨_, rfl⟩ (answers_other _ _ (by intros; simp)) rfl rfl rfl
      · exact hp' _
      · exact fun h => by cases h
  | cont payload =>
    simp only [WsQueue.doCall]
    refine P.enqueue ?_ ?_ _ _ _ ?_
    · exact h.fill .message (by simp) ⟨_, rfl⟩ (answers_other _ _ (by intros; simp)) rfl rfl rfl
    · exact hp' _
    · exact fun h => by cases h
  | ping payload =>
    simp only [WsQueue.doCall]
    split
    · exact href
    · split
      · exact href
      · refine P.enqueue ?_ ?_ _ _ _ ?_
        · exact h.fill .ping (by simp) ⟨_, rfl⟩ (answers_other _ _ (by intros; simp)) rfl rfl rfl
        · exact hp' _
        · exact fun h => by cases h
  | pong payload =>
    simp only [WsQueue.doCall]
    split
    · exact href
    · split
      · exact href
      · rename_i hw
        have hw : (w.jobs .pong).wbh = none := isSome_false hw
        refine P.enqueue (w := log { setJob w .pong _ with tickets := _ } _) (k := .pong) ⟨?_, fun h0 => ?_, ?_, fun _ hi => ?_, fun _ _ hf => ?_⟩ (hp' _) _ _ _ (fun _ ch hh => ?_)
        · show ((setJob w .pong _).jobs .pong).cont = false
          rw [setJob_self]; exact h.cont
        · show answers (_ :: w.log) ++ waiting ((setJob w .pong _).jobs .pong) = ps
          rw [answers_other _ _ (by intros; simp), waiting_user (by rw [setJob_self]; simp), ← h.eq h0, waiting_none hw]
        · show answers (_ :: w.log) <+: ps
          rw [answers_other _ _ (by intros; simp)]; exact h.pre
        · obtain ⟨hi, -⟩ := hi
          have hi : ((setJob w .pong _).jobs .pong).handler = .pongWritten := hi
          rw [setJob_self] at hi; cases hi
        · have hf : w.first = some .pong := hf
          exact absurd hw (hb _ hf)
        · have hh : ((setJob w .pong _).jobs .pong).handler = .pongWritten := hh
          rw [setJob_self] at hh; cases hh
  | close reasonLength timerOk =>
    simp only [WsQueue.doCall]
    split
    · exact href
    · split
      · exact h.fill .close (by simp) ⟨_, rfl⟩ (answers_log _ _ (by intros; simp)) rfl rfl rfl
      · refine P.enqueue ?_ ?_ _ _ _ ?_
        · exact h.fill .close (by simp) ⟨_, rfl⟩ (answers_other _ _ (by intros; simp)) rfl rfl rfl
        · exact hp' _
        · exact fun h => by cases h
  | read => exact h.same id rfl rfl rfl rfl

theorem total_pongFor (n : Nat) : total (if n > 0 then [Elem.usr n] else []) = n := by
  by_cases h : n > 0
  · rw [if_pos h]; simp [total]
  · rw [if_neg h]; simp [total]; omega

theorem P.arrive {w : World} {ps : List Frame} (h : P w ps) (hp : w.first = none → w.pend = false ∧ w.closedByError = false)
    (hb : ∀ k, w.first = some k → (w.jobs k).wbh ≠ none) (a : Act) (ha : ∀ n, a = .gotPing n → (w.jobs .pong).wbh = none) (tr : Outcome) (st : List Item) :
    P (arrive w a tr st).w (ps ++ (pingAct a).map pongFor) := by
  have hp' : ∀ k, w.first = none → (w.closedByError = false → w.pend = false) ∧ (w.closedByError = true → k ≠ Kind.pong) := fun k hf => ⟨fun _ => (hp hf).1, fun h => by rw [(hp hf).2] at h; cases h⟩
  cases a with
  | gotPing n =>
    simp only [WsQueue.arrive]
    have hw := ha n rfl
    refine P.enqueue (w := setJob { w with reading := false } .pong _) (k := .pong) ⟨?_, fun h0 => ?_, ?_, fun _ hi => ?_, fun _ _ hf => ?_⟩ (hp' _) _ _ _ (fun _ ch _ hc => ?_)
    · rw [setJob_self]; exact h.cont
    · have hnh : (if n > 0 then [Elem.usr n] else []).head? ≠ some .hdr := by split <;> simp
      show answers w.log ++ waiting ((setJob _ .pong _).jobs .pong) = _
      rw [setJob_self, ← h.eq h0, waiting_none hw, List.append_nil]
      congr 1
      simp only [waiting, if_neg hnh, total_pongFor, pongFor]
      rw [show ({ w with reading := false } : World).jobs = w.jobs from rfl, h.cont]
      rfl
    · show answers w.log <+: _
      exact h.pre.trans (List.prefix_append _ _)
    · obtain ⟨-, ch, hi⟩ := hi
      rw [setJob_self] at hi
      injection hi with hi
      split at hi <;> cases hi
    · have hf : w.first = some .pong := hf
      exact absurd hw (hb _ hf)
    · rw [setJob_self] at hc
      injection hc with hc
      rw [← hc, total_pongFor]
  | gotClose n =>
    simp only [WsQueue.arrive, pingAct, List.map_nil, List.append_nil]
    split
    · exact h.same id rfl rfl rfl rfl
    · refine P.enqueue ?_ ?_ _ _ _ ?_
      · exact h.fill .close (by simp) ⟨_, rfl⟩ rfl rfl rfl rfl
      · exact hp' _
      · exact fun h => by cases h
  | fail => simp only [WsQueue.arrive, pingAct, List.map_nil, List.append_nil]; exact P.handleError (w := { w with reading := false }) h.cont h.pre st
  | _ => simp only [WsQueue.arrive, pingAct, List.map_nil, List.append_nil]; exact h.same id rfl rfl rfl rfl

/-! ### What the phases say about the next step -/

structure NextP (s : State) : Prop where
  idle : (s.stack = [] ∨ s.stack.head? = some .input ∨ s.stack.head? = some (.user false)) → s.w.closes = 0 → s.w.first = none →
    s.w.pend = false ∧ s.w.closedByError = false
  next : ∀ k rest, s.stack = .sendNext (some k) :: rest → s.w.closes = 0 → (s.w.jobs k).wbh ≠ none → s.w.pend = false ∧ s.w.closedByError = false
  ab : ∀ rest, s.stack = .abort :: rest → s.w.closedByError = false → s.w.pend = false ∨ (s.w.jobs .pong).handler ≠ .pongWritten ∨ (s.w.jobs .pong).wbh = none
  err : ∀ rest, s.stack = .errClose :: rest → s.w.closedByError = true

/-- A state with something else on the stack. -/
theorem NextP.other {s : State} (h1 : s.stack ≠ []) (h2 : s.stack.head? ≠ some .input) (h3 : s.stack.head? ≠ some (.user false))
    (h4 : ∀ k, s.stack.head? ≠ some (.sendNext (some k))) (h5 : s.stack.head? ≠ some .abort) (h6 : s.stack.head? ≠ some .errClose) : NextP s where
  idle := fun h => by
    rcases h with h | h | h
    · exact absurd h h1
    · exact absurd h h2
    · exact absurd h h3
  next := fun k rest h => absurd (by rw [h]; rfl) (h4 k)
  ab := fun rest h => absurd (by rw [h]; rfl) h5
  err := fun rest h => absurd (by rw [h]; rfl) h6

theorem CalmSt.head {st : List Item} (h : CalmSt st) {i : Item} {rest : List Item} (hs : st = i :: rest) : isCalm i = true := h i (by rw [hs]; exact List.mem_cons_self)

theorem Base.pong_free {w : World} {q : List Kind} {x : List Nat} (b : Base w q x) (h : .pong ∉ q) : (w.jobs .pong).wbh = none := b.core.free .pong h (by simp)

theorem Phase.nextP {w : World} {st : List Item} (p : Phase w st) : NextP ⟨w, st⟩ := by
  have hcalm : ∀ (hst : CalmSt st), (∀ rest, st = .abort :: rest → False) ∧ (∀ rest, st = .errClose :: rest → False) := by
    intro hst
    exact ⟨fun rest h => absurd (hst.head h) (by simp [isCalm]), fun rest h => absurd (hst.head h) (by simp [isCalm])⟩
  cases p with
  | calm _ q u c =>
    refine ⟨fun _ _ hf => ⟨?_, c.cbe⟩, ?_, fun rest h => ((hcalm c.calm).1 rest h).elim, fun rest h => ((hcalm c.calm).2 rest h).elim⟩
    · have hs := c.send
      cases hs with
      | idle h => exact h
      | wait k u h => exact h
      | flight k' u h1 =>
        have hf : w.first = none := hf
        rw [c.base.core.first] at hf; cases hf
    · intro k rest hst _ _
      have hst : st = .sendNext (some k) :: rest := hst
      subst hst
      have hs := c.send
      cases hs with
      | idle h h' => rw [somes_cons_some] at h'; cases h'
      | flight k' u h h' => rw [somes_cons_some] at h'; cases h'
      | wait k' u hp h' => exact ⟨hp, c.cbe⟩
  | errAbort b rest q h h1 =>
    cases b with
    | false => exact ⟨fun h => by rcases h with h | h | h <;> simp [pre] at h, fun _ _ h => by simp [pre] at h, fun _ _ h => absurd (show w.closedByError = false from h) (by rw [h1]; simp), fun _ _ => h1⟩
    | true => exact NextP.other (by simp [pre]) (by simp [pre]) (by simp [pre]) (by simp [pre]) (by simp [pre]) (by simp [pre])
  | errClose rest h h1 => exact ⟨fun h => by rcases h with h | h | h <;> simp at h, fun _ _ h => by simp at h, fun _ h => by simp at h, fun _ _ => h1⟩
  | errored _ q' h h1 h2 h3 h4 h5 h6 h7 h8 h9 =>
    refine ⟨fun _ _ hf => ?_, ?_, fun rest h => ((hcalm h4).1 rest h).elim, fun rest h => ((hcalm h4).2 rest h).elim⟩
    · have hf : w.first = none := hf
      rw [h.core.first] at hf; cases hf
    · intro k rest hst _ hw
      have hst : st = .sendNext (some k) :: rest := hst
      subst hst
      have hk := h9 k (by rw [somes_cons_some]; exact List.mem_cons_self)
      exact absurd (h.core.free k (by rw [hk.2.2]; simpa using hk.1) hk.1) hw
  | immAbort res rest q h h1 => exact ⟨fun h => by rcases h with h | h | h <;> simp at h, fun _ _ h => by simp at h, fun _ _ h => absurd (show w.closedByError = false from h) (by rw [h1]; simp), fun _ h => by simp at h⟩
  | immCall res rest h => exact NextP.other (by simp) (by simp) (by simp) (by simp) (by simp) (by simp)
  | closeAbort b res rest q t h h1 h2 h3 h4 h5 h6 =>
    cases b with
    | false => exact ⟨fun h => by rcases h with h | h | h <;> simp [pre] at h, fun _ _ h => by simp [pre] at h, fun _ _ _ => .inl h6, fun _ h => by simp [pre] at h⟩
    | true => exact NextP.other (by simp [pre]) (by simp [pre]) (by simp [pre]) (by simp [pre]) (by simp [pre]) (by simp [pre])
  | closeCall res rest t h => exact NextP.other (by simp) (by simp) (by simp) (by simp) (by simp) (by simp)
  | respAbort b rest q h h1 h2 h3 h4 h5 h6 =>
    cases b with
    | false =>
      refine ⟨fun h => by rcases h with h | h | h <;> simp [pre] at h, fun _ _ h => by simp [pre] at h, fun _ _ _ => .inr ?_, fun _ h => by simp [pre] at h⟩
      by_cases hq : .pong ∈ q
      · exact .inl (fun hh => h6 ⟨hq, hh⟩)
      · exact .inr (h.pong_free hq)
    | true => exact NextP.other (by simp [pre]) (by simp [pre]) (by simp [pre]) (by simp [pre]) (by simp [pre]) (by simp [pre])
  | closing rest q h => exact NextP.other (by simp) (by simp) (by simp) (by simp) (by simp) (by simp)
  | dead _ q h h0 h1 =>
    refine ⟨?_, ?_, fun rest h => ((hcalm h1).1 rest h).elim, fun rest h => ((hcalm h1).2 rest h).elim⟩
    · intro _ hc; rw [show w.closes = 1 from h0] at hc; cases hc
    · intro _ _ _ hc; rw [show w.closes = 1 from h0] at hc; cases hc

theorem pingOf_off {s : State} {c : Choice} (h : ¬ (s.w.ub = false ∧ s.w.reading = true ∧ s.w.closes = 0 ∧ (s.stack = [] ∨ s.stack.head? = some .input))) : pingOf s c = [] :=
  if_neg h

theorem pingOf_on {s : State} {c : Choice} (h : s.w.ub = false ∧ s.w.reading = true ∧ s.w.closes = 0 ∧ (s.stack = [] ∨ s.stack.head? = some .input)) :
    pingOf s c = pingAct c.act := if_pos h

theorem pingOf_other {s : State} {c : Choice} (h : pingAct c.act = []) : pingOf s c = [] := by
  unfold pingOf
  split
  · exact h
  · rfl

/-- After an error the answer to a ping that arrives is only queued. -/
theorem P.arrive_err {w : World} {ps : List Frame} (h : P w ps) (he : w.closedByError = true) (hp : w.first = none → w.pend = false ∧ w.closedByError = false)
    (hb : ∀ k, w.first = some k → (w.jobs k).wbh ≠ none) (a : Act) (ha : ∀ n, a = .gotPing n → (w.jobs .pong).wbh = none) (tr : Outcome) (st : List Item) :
    P (WsQueue.arrive w a tr st).w ps := by
  cases a with
  | gotPing n =>
    simp only [WsQueue.arrive]
    refine P.enqueue (w := setJob { w with reading := false } .pong _) (P.error (w := w) h.cont h.pre he rfl (by rw [setJob_self])) (fun hf => ?_) _ _ _ ?_
    · have := (hp hf).2
      rw [he] at this; cases this
    · intro _ ch _ hc
      rw [setJob_self] at hc
      injection hc with hc
      rw [← hc, total_pongFor]
  | gotData => have := h.arrive hp hb .gotData ha tr st; simpa [pingAct] using this
  | gotClose n => have := h.arrive hp hb (.gotClose n) ha tr st; simpa [pingAct] using this
  | gotPong => have := h.arrive hp hb .gotPong ha tr st; simpa [pingAct] using this
  | fail => have := h.arrive hp hb .fail ha tr st; simpa [pingAct] using this
  | call x => have := h.arrive hp hb (.call x) ha tr st; simpa [pingAct] using this
  | ret => have := h.arrive hp hb .ret ha tr st; simpa [pingAct] using this
  | written x => have := h.arrive hp hb (.written x) ha tr st; simpa [pingAct] using this
  | timer => have := h.arrive hp hb .timer ha tr st; simpa [pingAct] using this

/-- What a step does to the invariant: the ping that arrives is to be answered, or (after an error) it is not. -/
theorem P.step_gen {s : State} {ps : List Frame} (h : P s.w ps) (n : Next s) (np : NextP s) (c : Choice) (ha : Allowed s c) (ext : List Frame)
    (hext : ext = (pingOf s c).map pongFor ∨ s.w.closedByError = true ∧ ext = []) : P (WsQueue.step s c).w (ps ++ ext) := by
  obtain ⟨w, st⟩ := s
  have hnil : pingOf ⟨w, st⟩ c = [] → ext = [] := by
    intro h1
    rcases hext with h2 | h2
    · rw [h2, h1]; rfl
    · exact h2.2
  have hping : ∀ m, c.act = .gotPing m → (w.jobs .pong).wbh = none := by
    intro m hm; unfold Allowed at ha; rw [hm] at ha; exact ha.1
  have hoff : pingOf ⟨w, st⟩ c = [] → P w ps → P w (ps ++ ext) := by
    intro h1 h2; rw [hnil h1]; simpa using h2
  unfold WsQueue.step
  split
  · rename_i hub
    rw [hnil (pingOf_off (by rintro ⟨h1, -⟩; rw [hub] at h1; cases h1))]; simpa using h
  · rename_i hub0
    have hubF : w.ub = false := by simpa using hub0
    split
    · rename_i hst
      have hst : st = [] := hst
      subst hst
      split
      · rename_i hact
        rw [hnil (pingOf_other (by rw [hact]; rfl))]
        simp only [List.append_nil]
        split
        · exact h.same id rfl rfl rfl rfl
        · exact h
      · rename_i r hact
        rw [hnil (pingOf_other (by rw [hact]; rfl))]
        simp only [List.append_nil]
        split
        · rename_i hp
          exact h.onWritten hp.1 _ _
        · exact h
      · rename_i call hact
        rw [hnil (pingOf_other (by rw [hact]; rfl))]
        simp only [List.append_nil]
        split
        · rename_i hc
          exact h.doCall (np.idle (.inl rfl) hc) n.busy _ _ _
        · exact h.same id rfl rfl rfl rfl
      · rename_i hact
        rw [hnil (pingOf_other (by rw [hact]; rfl))]
        simpa using h
      · split
        · rename_i hr
          rcases hext with hext | ⟨he, hext⟩
          · rw [hext, pingOf_on ⟨hubF, hr.1, hr.2, .inl rfl⟩]
            exact h.arrive (np.idle (.inl rfl) hr.2) n.busy _ hping _ _
          · rw [hext, List.append_nil]
            exact h.arrive_err he (np.idle (.inl rfl) hr.2) n.busy _ hping _ _
        · rename_i hr
          exact hoff (pingOf_off (fun h1 => hr ⟨h1.2.1, h1.2.2.1⟩)) h
    · rename_i err rest hst
      have hst : st = .user err :: rest := hst
      subst hst
      rw [hnil (pingOf_off (by rintro ⟨-, -, -, h1⟩; simp at h1))]
      simp only [List.append_nil]
      split
      · exact h
      · rename_i call hact
        split
        · rename_i hc
          have he : err = false := by
            unfold Allowed at ha; rw [hact] at ha
            cases err with
            | false => rfl
            | true => exact absurd rfl ha.1
          subst he
          exact h.doCall (np.idle (.inr (.inr rfl)) hc) n.busy _ _ _
        · exact h.same id rfl rfl rfl rfl
      · exact h
    · rename_i rest hst
      have hst : st = .input :: rest := hst
      subst hst
      split
      · rename_i hact; rw [hnil (pingOf_other (by rw [hact]; rfl))]; simpa using h
      · rename_i hact; rw [hnil (pingOf_other (by rw [hact]; rfl))]; simpa using h
      · rename_i hact; rw [hnil (pingOf_other (by rw [hact]; rfl))]; simpa using h
      · rename_i hact; rw [hnil (pingOf_other (by rw [hact]; rfl))]; simpa using h
      · split
        · rename_i hr
          rcases hext with hext | ⟨he, hext⟩
          · rw [hext, pingOf_on ⟨hubF, hr.1, hr.2, .inr rfl⟩]
            exact h.arrive (np.idle (.inr (.inl rfl)) hr.2) n.busy _ hping _ _
          · rw [hext, List.append_nil]
            exact h.arrive_err he (np.idle (.inr (.inl rfl)) hr.2) n.busy _ hping _ _
        · rename_i hr
          exact hoff (pingOf_off (fun h1 => hr ⟨h1.2.1, h1.2.2.1⟩)) h
    · rename_i rest hst
      have hst : st = .sendNext none :: rest := hst
      subst hst
      rw [hnil (pingOf_off (by rintro ⟨-, -, -, h1⟩; simp at h1))]
      simpa using h
    · rename_i k rest hst
      have hst : st = .sendNext (some k) :: rest := hst
      subst hst
      rw [hnil (pingOf_off (by rintro ⟨-, -, -, h1⟩; simp at h1))]
      simp only [List.append_nil]
      split
      · exact h.same id rfl rfl rfl rfl
      · rename_i hc
        split
        · exact h.same id rfl rfl rfl rfl
        · rename_i chain hw
          have hc : w.closes = 0 := by have hc : ¬ w.closes > 0 := hc; omega
          have hne : (w.jobs k).wbh ≠ none := by rw [show (w.jobs k).wbh = some chain from hw]; simp
          obtain ⟨g1, -⟩ := n.next k rest rfl hc hne
          obtain ⟨g2, g3⟩ := np.next k rest rfl hc hne
          have g2' : w.pend = false := g2
          have g3' : w.closedByError = false := g3
          have hs := P.sendFrame (w := w) (k := k) h g1 (fun _ => g2') (fun h0 => by rw [g3'] at h0; cases h0)
            (fun h0 hi => by have := (h.fl h0 hi).1; rw [g2'] at this; cases this) (total chain) c.tr rest (by
              intro e ch _ hw'
              subst e
              rw [show (w.jobs .pong).wbh = some chain from hw] at hw'
              injection hw' with hw'
              rw [hw'])
          generalize WsQueue.sendFrame w k (total chain) c.tr rest = p at hs
          obtain ⟨s', ok⟩ := p
          cases ok
          · exact P.handleError (hs.2 rfl).1 (hs.2 rfl).2 _
          · exact hs.1 rfl
    · rename_i rest hst
      have hst : st = .abort :: rest := hst
      subst hst
      rw [hnil (pingOf_off (by rintro ⟨-, -, -, h1⟩; simp at h1))]
      simp only [List.append_nil]
      split
      · exact h.same id rfl rfl rfl rfl
      · split
        · exact h
        · rename_i k w1 hd
          obtain ⟨hf, f, rfl⟩ := dequeue_form hd
          have hcont : ((setJob { w with first := f } k { ({ w with first := f } : World).jobs k with wbh := none }).jobs .pong).cont = false := by
            rw [setJob_jobs]; split
            · rename_i e; subst e; exact h.cont
            · exact h.cont
          refine P.callHandler _ _ _ _ hcont h.pre (fun hh => ?_)
          have hne : (w.jobs k).handler ≠ .pongWritten := by
            rcases hh with hh | hh
            · exact hh
            · cases hh
          refine h.drop k f w.pend (fun _ e => waiting_user (by rw [← e]; exact hne)) (fun h0 _ hi => ?_) (fun h0 hp => ?_)
          · rcases np.ab rest rfl h0 with g | g | g
            · have := (h.fl h0 hi).1
              rw [show w.pend = false from g] at this; cases this
            · exact g hi.1
            · exact not_inFlight_none g hi
          · rcases np.ab rest rfl h0 with g | g | g
            · rw [show w.pend = false from g] at hp; cases hp
            · exact waiting_user g
            · exact waiting_none g
    · rename_i rest hst
      have hst : st = .errClose :: rest := hst
      subst hst
      rw [hnil (pingOf_off (by rintro ⟨-, -, -, h1⟩; simp at h1))]
      simp only [List.append_nil]
      have hcb : w.closedByError = true := np.err rest rfl
      split
      · exact h.same id rfl rfl rfl rfl
      · have hk := P.enqueue (w := prepareClose w errReason .null .closeWrittenImmediate) (k := .close) (ps := ps)
          (P.error (w := w) h.cont h.pre hcb rfl (by rw [prepareClose, setJob_other _ _ _ _ (by simp)]))
          (fun _ => ⟨fun h0 => absurd (show w.closedByError = false from h0) (by rw [hcb]; simp), fun _ => by simp⟩) (2 + errReason) c.tr rest (fun h => by cases h)
        generalize WsQueue.enqueue (prepareClose w errReason .null .closeWrittenImmediate) .close (2 + errReason) c.tr rest = p at hk
        obtain ⟨s', ok⟩ := p
        cases ok
        · exact hk
        · exact hk
    · rename_i res rest hst
      have hst : st = .callClose res :: rest := hst
      subst hst
      rw [hnil (pingOf_off (by rintro ⟨-, -, -, h1⟩; simp at h1))]
      simp only [List.append_nil]
      split
      · exact h.same id rfl rfl rfl rfl
      · exact P.callHandler _ _ _ _ h.cont h.pre (fun _ => h)
    · rename_i rest hst
      have hst : st = .closeNow :: rest := hst
      subst hst
      rw [hnil (pingOf_off (by rintro ⟨-, -, -, h1⟩; simp at h1))]
      simp only [List.append_nil]
      exact h.same id (answers_other _ _ (by intros; simp)) rfl rfl rfl

theorem P.step {s : State} {ps : List Frame} (h : P s.w ps) (n : Next s) (np : NextP s) (c : Choice) (ha : Allowed s c) :
    P (WsQueue.step s c).w (ps ++ (pingOf s c).map pongFor) := h.step_gen n np c ha _ (.inl rfl)

end Cio.WsQueue
