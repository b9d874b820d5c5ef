import Verif.WsQueue.Content
/-
The content invariant is kept by each step of an execution that keeps to the rules.
-/
namespace Cio.WsQueue

theorem K.enqueue {w : World} {k : Kind} (h : K w) (hcb : ∀ t, (w.jobs k).handler = .user t → w.closedByError = false ∧ t ∉ sentT w.log)
    (len : Nat) (tr : Outcome) (st : List Item)
    (ha : ∀ t payload fl, (w.jobs k).handler = .user t → .accepted t k payload (w.jobs k).cont (w.jobs k).opcode (w.jobs k).lastFrame fl ∈ w.log →
      (w.jobs k).wbh = some (payload.map .usr) → (w.jobs k).cont = false → len = fl ∨ len = payload.sum) :
    K (enqueue w k len tr st).1.w := by
  unfold WsQueue.enqueue
  split
  · have hs := K.sendFrame (w := ({ w with first := some k, last := some k } : World)) (k := k) (K.same (w := w) h id rfl rfl rfl) rfl hcb len tr st ha
    generalize WsQueue.sendFrame { w with first := some k, last := some k } k len tr st = p at hs
    obtain ⟨s, ok⟩ := p
    cases ok
    · exact K.handleError (hs.2 rfl) _
    · exact hs.1 rfl
  · split
    · exact h.same id rfl rfl rfl
    · rename_i l _
      refine h.congr id rfl rfl ?_ ?_ ?_
      · intro x hx
        simp only [setJob_jobs]
        by_cases e : x = l
        · subst e; simp; exact h.nc x hx
        · simp [e]; exact h.nc x hx
      · intro x t
        simp only [setJob_jobs]
        by_cases e : x = l
        · subst e; simp
        · simp [e]
      · intro x t ch
        simp only [setJob_jobs]
        by_cases e : x = l
        · subst e; simp
        · simp [e]

/-- A call of the user is accepted. -/
theorem K.accept {w w' : World} (h : K w) (hb : ∀ t ∈ sentT w.log, t < w.tickets) (k : Kind) (j : Job) (payload : List Nat) (fl : Nat)
    (hj : w'.jobs = (setJob w k j).jobs) (hl : w'.log = .accepted w.tickets k payload j.cont j.opcode j.lastFrame fl :: w.log)
    (ht : w'.tickets = w.tickets + 1) (he : w'.closedByError = w.closedByError) (hw : j.wbh = some (payload.map .usr)) (hh : j.handler = .user w.tickets)
    (hk : k ≠ .message → fl = payload.sum ∧ j.cont = false) :
    K w' ∧ w.tickets ∉ sentT w'.log := by
  have hn : w.tickets ∉ sentT w.log := fun hm => Nat.lt_irrefl _ (hb _ hm)
  refine ⟨⟨?_, ?_, ?_, ?_, ?_⟩, by rw [hl]; exact hn⟩
  · rw [hl]; exact ⟨h.tickets, h.lg⟩
  · rw [hl, ht, h.tickets]; rfl
  · intro x hx
    rw [hj, setJob_jobs]
    by_cases e : x = k
    · subst e; rw [if_pos rfl]; exact (hk hx).2
    · rw [if_neg e]; exact h.nc x hx
  · intro x t ch h1 h2
    rw [hj, setJob_jobs] at h1 h2 ⊢
    by_cases e : x = k
    · subst e
      rw [if_pos rfl] at h1 h2 ⊢
      rw [hh] at h1
      injection h1 with h1
      subst h1
      rw [hw] at h2
      injection h2 with h2
      refine ⟨payload, fl, by rw [hl]; exact List.mem_cons_self, fun hx => (hk hx).1, .inl ⟨?_, .inl h2.symm⟩⟩
      rw [hl]; exact hn
    · rw [if_neg e] at h1 h2 ⊢
      refine (h.jobs x t ch h1 h2).mono rfl rfl rfl (by rw [he]; exact id) ?_ ?_
      · intro ev hev; rw [hl]; exact List.mem_cons_of_mem _ hev
      · rw [hl]; exact Iff.rfl
  · intro t h1
    rw [hj, setJob_jobs] at h1
    rw [hl]
    by_cases e : Kind.close = k
    · subst e
      rw [if_pos rfl, hh] at h1
      injection h1 with h1
      subst h1
      exact ⟨_, _, _, _, _, List.mem_cons_self⟩
    · rw [if_neg e] at h1
      obtain ⟨p, c, o, f, fl', h2⟩ := h.close t h1
      exact ⟨p, c, o, f, fl', List.mem_cons_of_mem _ h2⟩

/-- A job is filled in by the library, without a handler of the user. -/
theorem K.fill {w w' : World} (h : K w) (k : Kind) (j : Job) (hj : w'.jobs = (setJob w k j).jobs) (hl : w'.log = w.log) (ht : w'.tickets = w.tickets)
    (he : w'.closedByError = w.closedByError) (hh : ∀ t, j.handler ≠ .user t) (hc : j.cont = (w.jobs k).cont) : K w' := by
  refine h.congr (by rw [he]; exact id) hl ht ?_ ?_ ?_
  · intro x hx
    rw [hj, setJob_jobs]
    by_cases e : x = k
    · subst e; rw [if_pos rfl, hc]; exact h.nc x hx
    · rw [if_neg e]; exact h.nc x hx
  · intro x t
    rw [hj, setJob_jobs]
    by_cases e : x = k
    · subst e; rw [if_pos rfl]; exact fun h => absurd h (hh t)
    · rw [if_neg e]; exact id
  · intro x t ch
    rw [hj, setJob_jobs]
    by_cases e : x = k
    · subst e; rw [if_pos rfl]; exact fun h => absurd h (hh t)
    · rw [if_neg e]; exact fun _ h => ⟨h, rfl, rfl, rfl⟩

theorem K.log_refused {w : World} (h : K w) : K (log w .refused) := h.event _ trivial (fun _ => rfl) (fun _ => rfl)

theorem K.accept_enqueue {w w' : World} (h : K w) (hb : ∀ t ∈ sentT w.log, t < w.tickets) (hcb : w.closedByError = false) (k : Kind) (j : Job)
    (payload : List Nat) (fl : Nat) (hj : w'.jobs = (setJob w k j).jobs)
    (hl : w'.log = .accepted w.tickets k payload j.cont j.opcode j.lastFrame fl :: w.log)
    (ht : w'.tickets = w.tickets + 1) (he : w'.closedByError = w.closedByError) (hw : j.wbh = some (payload.map .usr)) (hh : j.handler = .user w.tickets)
    (hk : k ≠ .message → fl = payload.sum ∧ j.cont = false) (len : Nat) (hlen : j.cont = false → len = fl) (tr : Outcome) (st : List Item) :
    K (WsQueue.enqueue w' k len tr st).1.w := by
  obtain ⟨h1, h2⟩ := h.accept hb k j payload fl hj hl ht he hw hh hk
  have hjk : w'.jobs k = j := by rw [hj, setJob_self]
  refine K.enqueue h1 ?_ len tr st ?_
  · intro t hht
    rw [hjk, hh] at hht
    injection hht with hht
    subst hht
    exact ⟨by rw [he]; exact hcb, h2⟩
  · intro t p fl' hht hm _ hc
    rw [hjk, hh] at hht
    injection hht with hht
    subst hht
    rw [hjk] at hc
    have hm' : Ev.accepted w.tickets k payload j.cont j.opcode j.lastFrame fl ∈ w'.log := by rw [hl]; exact List.mem_cons_self
    have := (accepted_unique h1.lg hm hm').2.2.2.2.2
    left
    rw [hlen hc, this]

theorem K.doCall {w : World} (h : K w) (hb : ∀ t ∈ sentT w.log, t < w.tickets) (hcb : w.closedByError = false) (call : Call) (tr : Outcome) (st : List Item) :
    K (doCall w call tr st).w := by
  cases call with
  | first frameLength payload lastFrame binary =>
    simp only [WsQueue.doCall]
    split
    · exact h.log_refused
    · refine K.accept_enqueue (w := w) h hb hcb .message { w.jobs .message with
        wbh := some (payload.map .usr), handler := .user w.tickets, opcode := (if w.fragmentedWrite then if binary then 2 else 1 else 0),
        lastFrame := lastFrame, streamHandler := .messageWritten, cont := false } payload frameLength ?_ ?_ ?_ ?_ ?_ ?_ ?_ frameLength ?_ tr st
      · rfl
      · rfl
      · rfl
      · rfl
      · rfl
      · rfl
      · exact fun hk => absurd rfl hk
      · exact fun _ => rfl
  | cont payload =>
    simp only [WsQueue.doCall]
    refine K.accept_enqueue (w := w) h hb hcb .message { w.jobs .message with
      wbh := some (payload.map .usr), handler := .user w.tickets, streamHandler := .messageWritten, cont := true } payload 0 ?_ ?_ ?_ ?_ ?_ ?_ ?_ 0 ?_ tr st
    · rfl
    · simp only [log, setJob_self]; rfl
    · rfl
    · rfl
    · rfl
    · rfl
    · exact fun hk => absurd rfl hk
    · exact fun hc => by cases hc
  | ping payload =>
    simp only [WsQueue.doCall]
    split
    · exact h.log_refused
    · split
      · exact h.log_refused
      · refine K.accept_enqueue (w := w) h hb hcb .ping { w.jobs .ping with
          wbh := some (payload.map .usr), handler := .user w.tickets, opcode := 9, lastFrame := true, streamHandler := .messageWritten } payload payload.sum ?_ ?_ ?_ ?_ ?_ ?_ ?_ payload.sum ?_ tr st
        · rfl
        · simp only [log, setJob, h.nc .ping (by simp)]
        · rfl
        · rfl
        · rfl
        · rfl
        · exact fun _ => ⟨rfl, h.nc .ping (by simp)⟩
        · exact fun _ => rfl
  | pong payload =>
    simp only [WsQueue.doCall]
    split
    · exact h.log_refused
    · split
      · exact h.log_refused
      · refine K.accept_enqueue (w := w) h hb hcb .pong { w.jobs .pong with
          wbh := some (payload.map .usr), handler := .user w.tickets, opcode := 10, lastFrame := true, streamHandler := .messageWritten } payload payload.sum ?_ ?_ ?_ ?_ ?_ ?_ ?_ payload.sum ?_ tr st
        · rfl
        · simp only [log, setJob, h.nc .pong (by simp)]
        · rfl
        · rfl
        · rfl
        · rfl
        · exact fun _ => ⟨rfl, h.nc .pong (by simp)⟩
        · exact fun _ => rfl
  | close reasonLength timerOk =>
    simp only [WsQueue.doCall]
    split
    · exact h.log_refused
    · split
      · exact K.log_refused (K.fill h .close { w.jobs .close with
          wbh := some [.usr (2 + min reasonLength 123)], handler := .stale, streamHandler := .closeWritten, opcode := 8, lastFrame := true }
          rfl rfl rfl rfl (fun t ht => (by cases ht)) rfl)
      · refine K.accept_enqueue (w := w) h hb hcb .close { w.jobs .close with
          wbh := some [.usr (2 + min reasonLength 123)], handler := .user w.tickets, streamHandler := .closeWritten, opcode := 8, lastFrame := true }
          [2 + min reasonLength 123] (2 + min reasonLength 123) ?_ ?_ ?_ ?_ ?_ ?_ ?_ (2 + min reasonLength 123) ?_ tr st
        · rfl
        · simp only [log, setJob, prepareClose, h.nc .close (by simp)]
        · rfl
        · rfl
        · rfl
        · rfl
        · exact fun _ => ⟨by simp, h.nc .close (by simp)⟩
        · exact fun _ => rfl
  | read => exact h.same id rfl rfl rfl

theorem K.enqueue_lib {w : World} {k : Kind} (h : K w) (hh : ∀ t, (w.jobs k).handler ≠ .user t) (len : Nat) (tr : Outcome) (st : List Item) :
    K (WsQueue.enqueue w k len tr st).1.w :=
  K.enqueue h (fun t ht => absurd ht (hh t)) len tr st (fun t _ _ ht => absurd ht (hh t))

theorem K.arrive {w : World} (h : K w) (a : Act) (tr : Outcome) (st : List Item) : K (arrive w a tr st).w := by
  cases a with
  | gotPing n =>
    simp only [WsQueue.arrive]
    refine K.enqueue_lib ?_ ?_ _ _ _
    · exact K.fill h .pong { w.jobs .pong with
        wbh := some (if n > 0 then [.usr n] else []), handler := .pongWritten, opcode := 10, lastFrame := true, streamHandler := .messageWritten }
        rfl rfl rfl rfl (fun t ht => (by cases ht)) rfl
    · intro t; rw [setJob_self]; intro ht; cases ht
  | gotClose n =>
    simp only [WsQueue.arrive]
    split
    · exact h.same id rfl rfl rfl
    · refine K.enqueue_lib ?_ ?_ _ _ _
      · exact K.fill h .close { w.jobs .close with
          wbh := some [.usr (2 + min n 123)], handler := .null, streamHandler := .responseCloseWritten, opcode := 8, lastFrame := true }
          rfl rfl rfl rfl (fun t ht => (by cases ht)) rfl
      · intro t; rw [prepareClose, setJob_self]; intro ht; cases ht
  | fail => exact K.handleError (w := { w with reading := false }) (h.same (fun _ => rfl) rfl rfl rfl) st
  | _ => exact h.same id rfl rfl rfl

/-! ### What the phases say about the next step -/

structure Next (s : State) : Prop where
  bound : ∀ t ∈ sentT s.w.log, t < s.w.tickets
  busy : ∀ k, s.w.first = some k → (s.w.jobs k).wbh ≠ none
  head : s.stack = [] → s.w.pend = true → s.w.closes = 0 → ∀ k t, s.w.first = some k → s.w.bsHandler = .messageWritten →
    (s.w.jobs k).handler = .user t → t ∈ sentT s.w.log
  next : ∀ k rest, s.stack = .sendNext (some k) :: rest → s.w.closes = 0 → (s.w.jobs k).wbh ≠ none →
    s.w.first = some k ∧ ∀ t, (s.w.jobs k).handler = .user t → s.w.closedByError = false ∧ t ∉ sentT s.w.log

theorem Base.bound {w : World} {q : List Kind} {x : List Nat} (b : Base w q x) : ∀ t ∈ sentT w.log, t < w.tickets :=
  fun t ht => b.ord.2 t (by simpa using ht)

theorem Base.busy {w : World} {q : List Kind} {x : List Nat} (b : Base w q x) : ∀ k, w.first = some k → (w.jobs k).wbh ≠ none := by
  intro k hk
  rw [b.core.first] at hk
  exact b.core.busy k (List.mem_of_head? hk)

/-- A state in which nothing is sent next. -/
theorem Next.other {s : State} {q : List Kind} {x : List Nat} (b : Base s.w q x) (h1 : s.stack ≠ []) (h2 : ∀ k rest, s.stack ≠ .sendNext (some k) :: rest) : Next s :=
  ⟨b.bound, b.busy, fun h => absurd h h1, fun k rest h => absurd h (h2 k rest)⟩

theorem Phase.next {w : World} {st : List Item} (p : Phase w st) : Next ⟨w, st⟩ := by
  cases p with
  | calm _ q u c =>
    refine ⟨c.base.bound, c.base.busy, ?_, ?_⟩
    · intro hst hp _ k t hf _ hh
      have hs := c.send
      cases hs with
      | idle h => rw [show w.pend = true from hp] at h; cases h
      | wait k u h => rw [show w.pend = true from hp] at h; cases h
      | flight k' u h1 h2 h3 h4 =>
        have hf : w.first = some k := hf
        rw [c.base.core.first] at hf
        injection hf with hf
        subst hf
        exact h4 t (by rw [show (w.jobs k').handler = .user t from hh]; simp [ticketOf])
    · intro k rest hst _ _
      have hst : st = .sendNext (some k) :: rest := hst
      subst hst
      have hs := c.send
      cases hs with
      | idle h h' => rw [somes_cons_some] at h'; cases h'
      | flight k' u h h' => rw [somes_cons_some] at h'; cases h'
      | wait k' u hp h' =>
        rw [somes_cons_some] at h'
        obtain ⟨hk, -⟩ := List.cons.inj h'
        subst hk
        refine ⟨c.base.core.first, fun t hh => ⟨c.cbe, fun hm => ?_⟩⟩
        have ho := c.ord.1
        rw [qT_cons, show (w.jobs k).handler = .user t from hh] at ho
        have := (List.pairwise_append.mp ho).2.2 t (List.mem_reverse.mpr hm) t (by simp [ticketOf])
        exact Nat.lt_irrefl _ this
  | errAbort b rest q h => exact Next.other h (by cases b <;> simp [pre]) (by cases b <;> simp [pre])
  | errClose rest h => exact Next.other h (by simp) (by simp)
  | errored _ q' h h1 h2 h3 h4 h5 h6 h7 h8 h9 =>
    refine ⟨h.bound, h.busy, ?_, ?_⟩
    · intro _ _ _ k t _ hbs
      rw [show w.bsHandler = _ from h6] at hbs; cases hbs
    · intro k rest hst _ hw
      have hst : st = .sendNext (some k) :: rest := hst
      subst hst
      have hk := h9 k (by rw [somes_cons_some]; exact List.mem_cons_self)
      exact absurd (h.core.free k (by rw [hk.2.2]; simpa using hk.1) hk.1) hw
  | immAbort res rest q h => exact Next.other h (by simp) (by simp)
  | immCall res rest h => exact Next.other h (by simp) (by simp)
  | closeAbort b res rest q t h => exact Next.other h (by cases b <;> simp [pre]) (by cases b <;> simp [pre])
  | closeCall res rest t h => exact Next.other h (by simp) (by simp)
  | respAbort b rest q h => exact Next.other h (by cases b <;> simp [pre]) (by cases b <;> simp [pre])
  | closing rest q h => exact Next.other h (by simp) (by simp)
  | dead _ q h h0 =>
    refine ⟨h.bound, h.busy, ?_, ?_⟩
    · intro _ _ hc; rw [show w.closes = 1 from h0] at hc; cases hc
    · intro _ _ _ hc; rw [show w.closes = 1 from h0] at hc; cases hc

theorem K.step {s : State} (h : K s.w) (n : Next s) (c : Choice) (ha : Allowed s c) : K (step s c).w := by
  obtain ⟨w, st⟩ := s
  have hcall : ∀ call, c.act = .call call → w.closedByError = false ∧ w.closes = 0 := fun call hact => no_call hact ha
  unfold WsQueue.step
  split
  · exact h
  · split
    · split
      · split
        · exact h.same id rfl rfl rfl
        · exact h
      · split
        · rename_i hst _ r _ hp
          refine K.onWritten (w := { w with pend := false }) (h.same id rfl rfl rfl) ?_ _ _
          intro k hk
          exact ⟨n.busy k hk, fun t hb hh => n.head hst hp.1 hp.2 k t hk hb hh⟩
        · exact h
      · rename_i call hact
        split
        · exact h.doCall n.bound (hcall _ hact).1 _ _ _
        · exact h.same id rfl rfl rfl
      · exact h
      · split
        · exact h.arrive _ _ _
        · exact h
    · split
      · exact h
      · rename_i call hact
        split
        · exact h.doCall n.bound (hcall _ hact).1 _ _ _
        · exact h.same id rfl rfl rfl
      · exact h
    · split
      · exact h
      · exact h
      · exact h
      · exact h
      · split
        · exact h.arrive _ _ _
        · exact h
    · exact h
    · rename_i hst
      split
      · exact h.same id rfl rfl rfl
      · rename_i hc
        split
        · exact h.same id rfl rfl rfl
        · rename_i k rest _ chain hw
          have hc : w.closes = 0 := by have hc : ¬ w.closes > 0 := hc; omega
          obtain ⟨g1, g2⟩ := n.next k rest hst hc (by rw [show (w.jobs k).wbh = some chain from hw]; simp)
          have hs := K.sendFrame (w := w) (k := k) h g1 g2 (total chain) c.tr rest (by
            intro t payload fl _ _ hw' _
            rw [show (w.jobs k).wbh = some chain from hw] at hw'
            injection hw' with hw'
            right
            rw [hw', total_map])
          generalize WsQueue.sendFrame w k (total chain) c.tr rest = p at hs
          obtain ⟨s', ok⟩ := p
          cases ok
          · exact K.handleError (hs.2 rfl) _
          · exact hs.1 rfl
    · split
      · exact h.same id rfl rfl rfl
      · split
        · exact h
        · rename_i k w1 hd
          obtain ⟨hf, f, rfl⟩ := dequeue_form hd
          refine K.callHandler (h.drop k f) _ _ _ _ ?_
          intro t ht k' p cont o fi fl hm hk
          have ht : (w.jobs k).handler = .user t := ht
          have hm : Ev.accepted t k' p cont o fi fl ∈ w.log := hm
          show (t ∉ sentT w.log → _) ∧ (t ∈ sentT w.log → _)
          refine ⟨fun h0 => ⟨rfl, ?_⟩, fun _ hr => absurd rfl hr⟩
          cases hw : (w.jobs k).wbh with
          | none => exact absurd hw (n.busy k hf)
          | some chain =>
            obtain ⟨p', fl', h3, -, h5⟩ := h.jobs k t chain ht hw
            obtain ⟨-, e2, -⟩ := accepted_unique h.lg hm h3
            subst e2
            show (Option.getD (some chain) [] = _) ∨ _
            rcases h5 with ⟨-, h6⟩ | h5
            · rcases h6 with h6 | h6
              · exact .inl h6
              · exact .inr h6.2
            · exact absurd h5.1 h0
    · split
      · exact h.same id rfl rfl rfl
      · rename_i rest _ _
        have hk := K.enqueue_lib (w := prepareClose w errReason .null .closeWrittenImmediate) (k := .close)
          (K.fill h .close { w.jobs .close with
            wbh := some [.usr (2 + min errReason 123)], handler := .null, streamHandler := .closeWrittenImmediate, opcode := 8, lastFrame := true }
            rfl rfl rfl rfl (fun t ht => (by cases ht)) rfl) (by intro t; rw [prepareClose, setJob_self]; intro ht; cases ht) (2 + errReason) c.tr rest
        generalize WsQueue.enqueue (prepareClose w errReason .null .closeWrittenImmediate) .close (2 + errReason) c.tr rest = p at hk
        obtain ⟨s', ok⟩ := p
        cases ok
        · exact hk
        · exact hk
    · split
      · exact h.same id rfl rfl rfl
      · refine K.callHandler h _ _ _ _ ?_
        intro t ht k' p cont o fi fl hm hk
        obtain ⟨p', c', o', f', fl', h2⟩ := h.close t ht
        exact absurd (accepted_unique h.lg hm h2).1 hk
    · exact (h.same (w' := { w with closes := w.closes + 1 }) id rfl rfl rfl).event .closed trivial (fun _ => rfl) (fun _ => rfl)

theorem clean_step {s : State} {c : Choice} (h : Clean (step s c)) : Clean s :=
  fun hs => h ⟨(keeps_step s c).1 hs.1, (keeps_step s c).2 hs.2⟩

theorem reach_K {s : State} (h : Reach s) (hc : Clean s) : K s.w := by
  induction h with
  | init =>
    exact ⟨trivial, rfl, fun _ _ => rfl, fun k t ch h1 _ => (by cases h1), fun t h1 => (by cases h1)⟩
  | step s c hr ha ih =>
    have hc' := clean_step hc
    rcases reach_inv hr with h | ⟨h, -⟩ | ⟨-, p⟩
    · exact absurd h hc'
    · have : step s c = s := by unfold step; rw [if_pos h]
      rw [this]; exact ih hc'
    · exact (ih hc').step p.next c ha

end Cio.WsQueue
