import Verif.WsQueue.PeerClose
import Verif.WsQueue.Neg
/-
C68: a connection that the user closes, that its peer closes or that fails is given up.
-/
namespace Cio.WsQueue

theorem run_append (s : State) (a b : List Choice) : run s (a ++ b) = run (run s a) b := List.foldl_append

theorem reach_sup {s : State} (h : Reach s) : Sup s.w s.stack := by
  induction h with
  | init => exact ⟨fun h => (by cases h), rfl, rfl, rfl⟩
  | step s c _ _ ih => exact sup_step s c ih

/-- Closing by the user, in every execution whatever user, peer and transport do: once `cio_websocket_close` has been accepted, and as long as the close
hook has not run, the close timer is armed whenever the library has nothing to do; when it expires the close hook runs. -/
theorem user_close_supervised (cs : List Choice) (hub : (run {} cs).w.ub = false) (hst : (run {} cs).stack = []) (ha : asked (run {} cs).w.log = true)
    (h0 : hooks (run {} cs).w.log = 0) :
    (run {} cs).w.timer = true ∧ ∀ tr c, hooks (run {} (cs ++ [⟨.timer, tr⟩, c])).w.log = 1 ∧ (run {} (cs ++ [⟨.timer, tr⟩, c])).stack = [] := by
  have hs : Sup (run {} cs).w (run {} cs).stack := sup_run cs {} ⟨fun h => (by cases h), rfl, rfl, rfl⟩
  have ht : (run {} cs).w.timer = true := by
    rcases hs.1 (hs.2.1.trans ha) (by rw [← hs.2.2.1]; exact h0) with h | h
    · exact h
    · rw [hst] at h; cases h
  refine ⟨ht, ?_⟩
  intro tr c
  rw [run_append]
  generalize run {} cs = s at *
  obtain ⟨w, st⟩ := s
  have hst : st = [] := hst
  subst hst
  have e : run ⟨w, []⟩ [⟨.timer, tr⟩, c] = step (step ⟨w, []⟩ ⟨.timer, tr⟩) c := rfl
  rw [e, step_timer rfl hub ht, step_closeNow c (w := { w with timer := false }) hub]
  refine ⟨?_, rfl⟩
  show hooks w.log + 1 = 1
  rw [show hooks w.log = 0 from h0]

/-- The number of times the transport calls back in an execution. -/
def completions (s : State) : List Choice → Nat
  | [] => 0
  | c :: cs => (if completion s c then 1 else 0) + completions (step s c) cs

theorem soon_run {n : Nat} (cs : List Choice) : ∀ s, Reach s → Soon n s → okRun s cs = true → Soon (n - completions s cs) (run s cs) ∧ Reach (run s cs) := by
  induction cs generalizing n with
  | nil => intro s hr hs _; exact ⟨hs, hr⟩
  | cons c cs ih =>
    intro s hr hs hc
    simp only [okRun, Bool.and_eq_true, decide_eq_true_eq] at hc
    have h := ih (step s c) (Reach.step s c hr hc.1) (hs.step (reach_inv hr) hc.1) hc.2
    refine ⟨?_, h.2⟩
    have e : n - completions s (c :: cs) = n - (if completion s c then 1 else 0) - completions (step s c) cs := by
      show n - (_ + _) = _
      omega
    rw [e]
    exact h.1

theorem soon_ends {n : Nat} {s : State} (hr : Reach s) (hs : Soon n s) (cs : List Choice) (hok : okRun s cs = true) (hub : (run s cs).w.ub = false)
    (hst : (run s cs).stack = []) : 0 < hooks (run s cs).w.log ∨ ((run s cs).w.pend = true ∧ completions s cs < n) := by
  obtain ⟨h1, h2⟩ := soon_run cs s hr hs hok
  by_cases h0 : (run s cs).w.closes = 0
  · have := h1.pend (reach_inv h2) hub hst h0
    exact .inr ⟨this.1, by omega⟩
  · left
    have := (reach_sup h2).2.2.1
    omega

theorem failed_iff (l : List Ev) : failed l = true ↔ .onError ∈ l := by
  induction l with
  | nil => simp [failed]
  | cons e l ih => cases e <;> simp [failed, ih]

/-- A failed connection that the user was not closing: as long as the close hook has not run a write is with the transport whenever the library has
nothing to do, and the close hook has run when the transport has called back once. -/
theorem failure_ends_partial {s : State} (hr : Reach s) (he : .onError ∈ s.w.log) (hsc : asked s.w.log = false) (cs : List Choice)
    (hok : okRun s cs = true) (hub : (run s cs).w.ub = false) (hst : (run s cs).stack = []) :
    0 < hooks (run s cs).w.log ∨ ((run s cs).w.pend = true ∧ completions s cs < 1) := by
  have hs := reach_sup hr
  refine soon_ends hr (.inr (.inr (.inr (.inl ⟨?_, ?_, Nat.le_refl _⟩)))) cs hok hub hst
  · rw [hs.2.2.2]; exact (failed_iff _).mpr he
  · rw [hs.2.1]; exact hsc

/-- A frame can arrive: a read is outstanding and the library has nothing to do or is just delivering data. -/
def listening (s : State) : Prop := s.w.reading = true ∧ s.w.closes = 0 ∧ (s.stack = [] ∨ s.stack.head? = some .input)

theorem kinds_count (q : List Kind) : q.length = q.count .message + q.count .ping + q.count .pong + q.count .close := by
  induction q with
  | nil => rfl
  | cons k q ih => cases k <;> simp [ih] <;> omega

theorem kinds_le {q : List Kind} (h : q.Nodup) (hc : .close ∉ q) : q.length ≤ 3 := by
  have h1 := kinds_count q
  have h2 := List.nodup_iff_count.mp h
  have h3 := h2 .message
  have h4 := h2 .ping
  have h5 := h2 .pong
  have h6 : q.count .close = 0 := List.count_eq_zero.mpr hc
  omega

theorem soon_gotClose {s : State} (hr : Reach s) (hub : s.w.ub = false) (hl : listening s) (he : s.w.closedByError = false) (hsc : s.w.selfClose = false)
    (n : Nat) (tr : Outcome) : Soon 4 (step s ⟨.gotClose n, tr⟩) := by
  obtain ⟨w, st⟩ := s
  obtain ⟨hrd, h0, hst⟩ := hl
  have hp : Phase w st := by
    rcases reach_inv hr with h | h | ⟨-, p⟩
    · rw [show w.closedByError = false from he] at h; cases h.1
    · rw [show w.ub = false from hub] at h; cases h.1
    · exact p
  have hcalm : ∃ q u, Calm w st q u := by
    cases hp with
    | calm _ q u c => exact ⟨q, u, c⟩
    | errAbort b rest q h1 h2 => rw [show w.closedByError = false from he] at h2; cases h2
    | errClose rest h1 h2 => rw [show w.closedByError = false from he] at h2; cases h2
    | errored _ q' h1 h2 => rw [show w.closedByError = false from he] at h2; cases h2
    | immAbort res rest q h1 h2 => rw [show w.closedByError = false from he] at h2; cases h2
    | immCall res rest h1 h2 => rw [show w.closedByError = false from he] at h2; cases h2
    | closeAbort b res rest q t h1 h2 h3 h4 h5 => rw [show w.selfClose = false from hsc] at h5; cases h5
    | closeCall res rest t h1 h2 h3 h4 => rw [show w.selfClose = false from hsc] at h4; cases h4
    | respAbort b rest q => cases b <;> simp [pre] at hst
    | closing rest q => simp at hst
    | dead _ q h1 h2 => rw [show w.closes = 0 from h0] at h2; cases h2
  obtain ⟨q, u, c⟩ := hcalm
  have hturn := c.tok.t1 hrd
  have hnn : .close ∈ q → (w.jobs .close).handler ≠ .null := by
    intro h1 h2
    have := (c.tok.t3 h1 h2).1
    rw [show w.reading = true from hrd] at this; cases this
  have hq : .close ∉ q := by
    intro h2
    rcases c.base.core.ok .close h2 with h | h | h
    · rw [show w.selfClose = false from hsc] at h; cases h.2.2
    · exact hnn h2 h.1
    · exact hnn h2 h.1
  have hnk : .close ∉ sentK w.log := fun h2 => hq (List.mem_of_head? (c.c2 hsc h2).2)
  have f : Filled w (prepareClose { w with reading := false } n .null .responseCloseWritten) q .close := by
    refine { ub := hub, new := hq, jobs := ?_, next := ?_, first := rfl, last := rfl, busy := ?_, ok := ?_, timer := c.base.core.timer, sc := .inl rfl,
             sc' := id, cbe := c.cbe, open_ := c.open_, pend := rfl, bs := rfl, sT := rfl, sK := rfl, cT := rfl, ticket := .inl ⟨?_, rfl⟩,
             notyet := fun _ => hnk, tok := ?_ }
    · intro x hx; simp [prepareClose, setJob, hx]
    · simp [prepareClose, setJob]
    · simp [prepareClose, setJob]
    · refine .inr (.inl ⟨by simp [prepareClose, setJob], by simp [prepareClose, setJob], hsc⟩)
    · simp [prepareClose, setJob, ticketOf]
    · have hp : .pong ∈ q ++ [.close] → (w.jobs .pong).handler ≠ .pongWritten := by
        intro h1 h2
        have h1 : .pong ∈ q := by
          rcases List.mem_append.mp h1 with h | h
          · exact h
          · simp at h
        have := (c.tok.t2 h1 h2).1
        rw [show w.reading = true from hrd] at this; cases this
      refine ⟨fun h => (by cases h), ?_, ?_⟩
      · intro h1 h2
        exact absurd (by simpa [prepareClose, setJob] using h2) (hp h1)
      · intro _ _
        refine ⟨rfl, hturn, ?_⟩
        rintro ⟨h1, h2⟩
        exact absurd (by simpa [prepareClose, setJob] using h2) (hp h1)
  have e : step ⟨w, st⟩ ⟨.gotClose n, tr⟩ = (enqueue (prepareClose { w with reading := false } n .null .responseCloseWritten) .close (2 + min n 123) tr st).1 := by
    have e2 : arrive w (.gotClose n) tr st =
        (enqueue (prepareClose { w with reading := false } n .null .responseCloseWritten) .close (2 + min n 123) tr st).1 := by
      simp only [arrive]
      rw [if_neg (by rw [show w.selfClose = false from hsc]; simp)]
    rw [← e2]
    have hc : w.reading = true ∧ w.closes = 0 := ⟨hrd, h0⟩
    have hub : w.ub = false := hub
    cases st with
    | nil =>
      unfold step
      rw [if_neg (show ¬ w.ub = true from by rw [hub]; simp)]
      exact if_pos hc
    | cons i rest =>
      have hi : i = .input := by simpa using hst
      subst hi
      unfold step
      rw [if_neg (show ¬ w.ub = true from by rw [hub]; simp)]
      exact if_pos hc
  rw [e]
  by_cases hqe : q = []
  · subst hqe
    have hs : somes st = [] ∧ w.pend = false ∧ u = [] := by
      have h := c.send
      cases h with
      | idle h1 h2 => exact ⟨h2, h1, rfl⟩
    obtain ⟨hs1, hs2, rfl⟩ := hs
    have hsc1 : (prepareClose { w with reading := false } n .null .responseCloseWritten).selfClose = false := hsc
    generalize prepareClose { w with reading := false } n .null .responseCloseWritten = w1 at f hsc1
    unfold enqueue
    rw [f.first, c.base.core.first]
    simp only [List.head?_nil]
    have hcore : Core { w1 with first := some .close, last := some .close } [.close] :=
      c.base.core.single f.jobs rfl rfl f.busy (f.ok.congr rfl rfl rfl id) f.timer
    have hb2 : w1.selfClose = false → .close ∈ sentK w1.log → (sentK w1.log).head? = some .close := by
      intro h1 h2
      rw [f.sK] at h2
      exact absurd h2 hnk
    have r : Ready { w1 with first := some .close, last := some .close } st .close [] :=
      { base := ⟨hcore, f.cnt c, (f.ord c).nil, by rw [f.sK]; exact c.base.c1, hb2, (by rw [f.cT, f.sT]; exact c.base.succ)⟩, ub := f.ub, calm := c.calm, nosome := hs1, cbe := f.cbe, open_ := f.open_,
        pend := by show w1.pend = false; rw [f.pend]; exact hs2
        ord := f.ord c, c1 := f.c1 c
        c2 := by
          intro _ h2
          have h2 : .close ∈ sentK w1.log := h2
          rw [f.sK] at h2
          exact hnk h2
        tok := ⟨f.tok.t1, f.tok.t2, f.tok.t3⟩ }
    have hi := soon_sendFrame r (2 + min n 123) tr (n := 0) hsc1 rfl
    generalize sendFrame { w1 with first := some .close, last := some .close } .close (2 + min n 123) tr st = p at hi
    obtain ⟨s, ok⟩ := p
    cases ok
    · exact Soon.mono (n := 0 + 1) hi (by omega)
    · exact Soon.mono (n := 0 + 1) hi (by omega)
  · obtain ⟨w', h1, h2, h3⟩ := enqueue_core c f hqe (2 + min n 123) tr
    rw [h1]
    refine .inr (.inr (.inr (.inr ⟨q.length, ?_, ?_, q ++ [.close], h2, by simp⟩)))
    · have := kinds_le c.base.core.nodup hq
      omega
    · show w'.selfClose = false
      rw [h3]; exact hsc

/-- The peer closes a connection that neither has failed nor is being closed by the user: in whatever way things go on, whenever the library has nothing
to do the close hook has run or a write is with the transport, and the close hook has run when the transport has called back four times. -/
theorem peer_close_ends_partial {s : State} (hr : Reach s) (hub : s.w.ub = false) (hl : listening s) (he : .onError ∉ s.w.log)
    (hsc : asked s.w.log = false) (n : Nat) (tr : Outcome) (cs : List Choice) (hok : okRun (step s ⟨.gotClose n, tr⟩) cs = true)
    (hub' : (run (step s ⟨.gotClose n, tr⟩) cs).w.ub = false) (hst : (run (step s ⟨.gotClose n, tr⟩) cs).stack = []) :
    0 < hooks (run (step s ⟨.gotClose n, tr⟩) cs).w.log ∨
      ((run (step s ⟨.gotClose n, tr⟩) cs).w.pend = true ∧ completions (step s ⟨.gotClose n, tr⟩) cs < 4) := by
  have hs := reach_sup hr
  refine soon_ends (Reach.step s ⟨.gotClose n, tr⟩ hr trivial) (soon_gotClose hr hub hl ?_ ?_ n tr) cs hok hub' hst
  · rw [hs.2.2.2]
    cases h : failed s.w.log
    · rfl
    · exact absurd ((failed_iff _).mp h) he
  · rw [hs.2.1]; exact hsc

/-! ### Nothing else ends it -/

/-- The answer, or the close frame of a failed connection, is with the transport or waits for it. -/
structure Stuck (w : World) (st : List Item) : Prop where
  hooks : hooks w.log = 0
  closes : w.closes = 0
  timer : w.timer = false
  sc : w.selfClose = false
  first : w.first ≠ none
  last : w.last ≠ none
  busy : (w.jobs .close).wbh ≠ none
  quiet : w.closedByError = true ∨ (w.reading = false ∧ w.turn = false)
  st : ∀ i ∈ st, (∃ e, i = .user e) ∨ i = .input

/-- A job is appended. -/
theorem stuck_enqueue {w w0 : World} {st : List Item} {k : Kind} (len : Nat) (tr : Outcome) (h : Stuck w0 st) (h1 : WsQueue.hooks w.log = 0) (h2 : w.closes = w0.closes)
    (h3 : w.timer = w0.timer) (h4 : w.selfClose = w0.selfClose) (h5 : w.first = w0.first) (h6 : w.last = w0.last) (h7 : (w.jobs .close).wbh ≠ none)
    (h8 : w.closedByError = true ∨ (w.reading = false ∧ w.turn = false)) :
    Stuck (enqueue w k len tr st).1.w (enqueue w k len tr st).1.stack := by
  obtain ⟨a, ha⟩ : ∃ a, w.first = some a := by
    cases hf : w.first with
    | none => exact absurd (h5.symm.trans hf) h.first
    | some a => exact ⟨a, rfl⟩
  obtain ⟨l, hl⟩ : ∃ l, w.last = some l := by
    cases hf : w.last with
    | none => exact absurd (h6.symm.trans hf) h.last
    | some a => exact ⟨a, rfl⟩
  unfold enqueue
  rw [ha, hl]
  refine ⟨h1, h2.trans h.closes, h3.trans h.timer, h4.trans h.sc, ?_, ?_, ?_, h8, h.st⟩
  · show w.first ≠ none; rw [ha]; simp
  · show some k ≠ none; simp
  · show ((setJob w l { w.jobs l with next := some k }).jobs .close).wbh ≠ none
    rw [setJob_jobs]
    split
    · rename_i e; show (w.jobs l).wbh ≠ none; rw [← e]; exact h7
    · exact h7

theorem Stuck.push {w w' : World} {st st' : List Item} (h : Stuck w st) (h1 : WsQueue.hooks w'.log = WsQueue.hooks w.log) (h2 : w'.closes = w.closes)
    (h3 : w'.timer = w.timer) (h4 : w'.selfClose = w.selfClose) (h5 : w'.first = w.first) (h6 : w'.last = w.last) (h7 : w'.jobs = w.jobs)
    (h8 : w'.closedByError = true ∨ (w'.reading = false ∧ w'.turn = false)) (h9 : ∀ i ∈ st', (∃ e, i = .user e) ∨ i = .input) : Stuck w' st' :=
  ⟨h1.trans h.hooks, h2.trans h.closes, h3.trans h.timer, h4.trans h.sc, (by rw [h5]; exact h.first), (by rw [h6]; exact h.last), (by rw [h7]; exact h.busy), h8, h9⟩

theorem stuck_doCall {w : World} {st : List Item} (h : Stuck w st) (call : Call) (tr : Outcome)
    (ha : w.closedByError = true ∨ (call = .read → w.turn = true)) : Stuck (doCall w call tr st).w (doCall w call tr st).stack := by
  have href : Stuck (log w .refused) st := h.push rfl rfl rfl rfl rfl rfl rfl h.quiet h.st
  cases call with
  | first n p l b =>
    simp only [doCall]
    split
    · exact href
    · refine stuck_enqueue _ _ h h.hooks rfl rfl rfl rfl rfl ?_ h.quiet
      simpa [log, setJob] using h.busy
  | cont p =>
    refine stuck_enqueue _ _ h h.hooks rfl rfl rfl rfl rfl ?_ h.quiet
    simpa [log, setJob] using h.busy
  | ping p =>
    simp only [doCall]
    split
    · exact href
    · split
      · exact href
      · refine stuck_enqueue _ _ h h.hooks rfl rfl rfl rfl rfl ?_ h.quiet
        simpa [log, setJob] using h.busy
  | pong p =>
    simp only [doCall]
    split
    · exact href
    · split
      · exact href
      · refine stuck_enqueue _ _ h h.hooks rfl rfl rfl rfl rfl ?_ h.quiet
        simpa [log, setJob] using h.busy
  | close n b =>
    simp only [doCall]
    have hx : (w.jobs .close).wbh.isSome = true := by
      cases hx : (w.jobs .close).wbh with
      | none => exact absurd hx h.busy
      | some _ => rfl
    rw [if_pos hx]; exact href
  | read =>
    refine h.push rfl rfl rfl rfl rfl rfl rfl ?_ ?_
    · rcases h.quiet with hq | hq
      · exact .inl hq
      · rcases ha with ha | ha
        · exact .inl ha
        · rw [hq.2] at ha; cases ha rfl
    · intro i hi
      rcases List.mem_cons.mp hi with hi | hi
      · exact .inr hi
      · exact h.st i hi

theorem stuck_arrive {w : World} {st : List Item} (h : Stuck w st) (he : w.closedByError = true) (a : Act) (tr : Outcome) :
    Stuck (arrive w a tr st).w (arrive w a tr st).stack := by
  cases a with
  | gotPing n =>
    refine stuck_enqueue _ _ h h.hooks rfl rfl rfl rfl rfl ?_ (.inl he)
    simpa [setJob] using h.busy
  | gotClose n =>
    simp only [arrive]
    rw [if_neg (by rw [h.sc]; simp)]
    refine stuck_enqueue _ _ h h.hooks rfl rfl rfl rfl rfl ?_ (.inl he)
    simp [prepareClose, setJob]
  | fail =>
    have e : arrive w .fail tr st = ⟨{ w with reading := false }, st⟩ := by
      show handleError { w with reading := false } st = _
      unfold handleError
      rw [if_pos (by exact he)]
    rw [e]
    exact h.push rfl rfl rfl rfl rfl rfl rfl (.inl he) h.st
  | gotData =>
    refine h.push rfl rfl rfl rfl rfl rfl rfl (.inl he) ?_
    intro i hi
    rcases List.mem_cons.mp hi with hi | hi
    · exact .inl ⟨_, hi⟩
    · exact h.st i hi
  | _ => exact h

theorem stuck_step (s : State) (c : Choice) (h : Stuck s.w s.stack) (hc : ∀ r, c.act ≠ .written r)
    (ha : s.w.closedByError = true ∨ (c.act = .call .read → s.w.turn = true)) : Stuck (step s c).w (step s c).stack := by
  obtain ⟨w, st⟩ := s
  have h : Stuck w st := h
  have h0 := h.closes
  have htail : ∀ i rest, st = i :: rest → Stuck w rest := fun i rest e =>
    h.push rfl rfl rfl rfl rfl rfl rfl h.quiet (fun x hx => h.st x (by rw [e]; exact List.mem_cons_of_mem _ hx))
  have hcall : ∀ call, c.act = .call call → Stuck (doCall w call c.tr st).w (doCall w call c.tr st).stack := by
    intro call hx
    refine stuck_doCall h call c.tr ?_
    rcases ha with ha | ha
    · exact .inl ha
    · refine .inr (fun e => ha ?_)
      rw [hx, e]
  have harr : ∀ a, w.reading = true → Stuck (arrive w a c.tr st).w (arrive w a c.tr st).stack := by
    intro a hr
    refine stuck_arrive h ?_ a c.tr
    rcases h.quiet with hq | hq
    · exact hq
    · rw [hr] at hq; cases hq.1
  unfold step
  split
  · exact h
  · dsimp only
    cases st with
    | nil =>
      dsimp only
      cases hact : c.act with
      | timer =>
        dsimp only
        rw [if_neg (by rw [h.timer]; simp)]
        exact h
      | written r => exact absurd hact (hc r)
      | call call =>
        dsimp only
        first
          | exact hcall call hact
          | (rw [if_pos h0]; exact hcall call hact)
      | ret => exact h
      | _ =>
        dsimp only
        split
        · rename_i hr; exact harr _ hr.1
        · exact h
    | cons i rest =>
      rcases h.st i List.mem_cons_self with ⟨e, he⟩ | he
      · subst he
        dsimp only
        cases hact : c.act with
        | ret => exact htail _ _ rfl
        | call call =>
          dsimp only
          first
            | exact hcall call hact
            | (rw [if_pos h0]; exact hcall call hact)
        | _ => exact h
      · subst he
        dsimp only
        cases c.act with
        | ret => exact htail _ _ rfl
        | call _ => exact h
        | written _ => exact h
        | timer => exact h
        | _ =>
          dsimp only
          split
          · rename_i hr; exact harr _ hr.1
          · exact h

theorem core_stuck {w : World} {q : List Kind} (c : Core w q) (hm : .close ∈ q) : w.first ≠ none ∧ w.last ≠ none ∧ (w.jobs .close).wbh ≠ none := by
  have hq : q ≠ [] := List.ne_nil_of_mem hm
  refine ⟨?_, ?_, c.busy _ hm⟩
  · rw [c.first]
    cases q with
    | nil => exact absurd rfl hq
    | cons a r => simp
  · rw [c.last hq, List.getLast?_eq_some_getLast hq]; simp

/-- Nothing but the transport ends a failed connection: there is no timer, and `cio_websocket_close` is refused.  Whatever the user calls and the peer
sends, the close hook does not run as long as the transport does not call back. -/
theorem failed_unsupervised {s : State} (hr : Reach s) (hub : s.w.ub = false) (hst : s.stack = []) (he : .onError ∈ s.w.log) (hsc : asked s.w.log = false)
    (h0 : hooks s.w.log = 0) (cs : List Choice) (hcs : ∀ c ∈ cs, ∀ r, c.act ≠ .written r) : hooks (run s cs).w.log = 0 := by
  have hs := reach_sup hr
  have hcbe : s.w.closedByError = true := by rw [hs.2.2.2]; exact (failed_iff _).mpr he
  have hscf : s.w.selfClose = false := by rw [hs.2.1]; exact hsc
  have hc0 : s.w.closes = 0 := by rw [← hs.2.2.1]; exact h0
  obtain ⟨w, st⟩ := s
  have hst : st = [] := hst
  subst hst
  have hp : Phase w [] := by
    rcases reach_inv hr with h | h | ⟨-, p⟩
    · exact absurd h.2 (by rw [hscf]; simp)
    · rw [hub] at h; cases h.1
    · exact p
  obtain ⟨-, -, q, hq⟩ := errored_rest hp hcbe hc0
  obtain ⟨h1, h2, h3⟩ := core_stuck hq List.mem_cons_self
  have key : ∀ (cs : List Choice) (s : State), (∀ c ∈ cs, ∀ r, c.act ≠ .written r) → Stuck s.w s.stack → s.w.closedByError = true → hooks (run s cs).w.log = 0 := by
    intro cs
    induction cs with
    | nil => intro s _ h _; exact h.hooks
    | cons c cs ih =>
      intro s hcs h he
      exact ih (step s c) (fun x hx => hcs x (List.mem_cons_of_mem _ hx)) (stuck_step s c h (hcs c List.mem_cons_self) (.inl he)) ((keeps_step s c).1 he)
  exact key cs ⟨w, []⟩ hcs ⟨h0, hc0, timer_false hq hscf, hscf, h1, h2, h3, .inl hcbe, fun _ h => nomatch h⟩ hcbe

/-- Nor a connection closed by the peer: from any moment at which the library has nothing to do, the close hook has not run and the connection has not
failed, the close hook does not run as long as the transport does not call back, if the user keeps to the rules. -/
theorem peer_closed_unsupervised {s : State} (hr : Reach s) (hub : s.w.ub = false) (hl : listening s) (he : .onError ∉ s.w.log)
    (hsc : asked s.w.log = false) (n : Nat) (tr : Outcome) (cs : List Choice) (hok : okRun (step s ⟨.gotClose n, tr⟩) cs = true)
    (hub' : (run (step s ⟨.gotClose n, tr⟩) cs).w.ub = false) (hst : (run (step s ⟨.gotClose n, tr⟩) cs).stack = [])
    (he' : .onError ∉ (run (step s ⟨.gotClose n, tr⟩) cs).w.log) (h0 : hooks (run (step s ⟨.gotClose n, tr⟩) cs).w.log = 0)
    (cs' : List Choice) (hok' : okRun (run (step s ⟨.gotClose n, tr⟩) cs) cs' = true) (hcs : ∀ c ∈ cs', ∀ r, c.act ≠ .written r) :
    hooks (run (run (step s ⟨.gotClose n, tr⟩) cs) cs').w.log = 0 := by
  have hs := reach_sup hr
  have nf : ∀ l, .onError ∉ l → failed l = false := by
    intro l h
    cases h' : failed l
    · rfl
    · exact absurd ((failed_iff _).mp h') h
  have hsoon := soon_gotClose hr hub hl (by rw [hs.2.2.2]; exact nf _ he) (by rw [hs.2.1]; exact hsc) n tr
  obtain ⟨h1, hr1⟩ := soon_run cs _ (Reach.step s ⟨.gotClose n, tr⟩ hr trivial) hsoon hok
  have hs1 := reach_sup hr1
  generalize run (step s ⟨.gotClose n, tr⟩) cs = s1 at *
  have hcbe : s1.w.closedByError = false := by rw [hs1.2.2.2]; exact nf _ he'
  have hc0 : s1.w.closes = 0 := by rw [← hs1.2.2.1]; exact h0
  obtain ⟨w, st⟩ := s1
  have hst : st = [] := hst
  subst hst
  have hw : ∃ m, Waits m w := by
    rcases h1 with h | h | h | h | ⟨m, _, h⟩
    · rw [hub'] at h; cases h
    · exact absurd hc0 h
    · cases h
    · rw [show w.closedByError = false from hcbe] at h; cases h.1
    · exact ⟨m, h⟩
  obtain ⟨m, hw⟩ := hw
  have hp : Phase w [] := by
    rcases reach_inv hr1 with h | h | ⟨-, p⟩
    · rw [show w.closedByError = false from hcbe] at h; cases h.1
    · rw [hub'] at h; cases h.1
    · exact p
  obtain ⟨q, u, hc, hq⟩ := waits_calm hp hcbe hc0 (by simp) hw
  have hmem : .close ∈ q := List.mem_of_getElem? hq
  have hscf : w.selfClose = false := hw.1
  have hnull : (w.jobs .close).handler = .null := by
    rcases hc.base.core.ok .close hmem with h | h | h
    · rw [h.2.2] at hscf; cases hscf
    · exact h.1
    · exact h.1
  obtain ⟨hrd, hturn, -⟩ := hc.tok.t3 hmem hnull
  obtain ⟨k1, k2, k3⟩ := core_stuck hc.base.core hmem
  have key : ∀ (cs : List Choice) (s : State), (∀ c ∈ cs, ∀ r, c.act ≠ .written r) → Stuck s.w s.stack → okRun s cs = true → hooks (run s cs).w.log = 0 := by
    intro cs
    induction cs with
    | nil => intro s _ h _; exact h.hooks
    | cons c cs ih =>
      intro s hcs h ho
      simp only [okRun, Bool.and_eq_true, decide_eq_true_eq] at ho
      refine ih (step s c) (fun x hx => hcs x (List.mem_cons_of_mem _ hx)) (stuck_step s c h (hcs c List.mem_cons_self) (.inr ?_)) ho.2
      intro hx
      have := ho.1
      unfold Allowed at this
      rw [hx] at this
      exact this.2.2.2
  exact key cs' ⟨w, []⟩ hcs ⟨h0, hc0, timer_false hc.base.core hscf, hscf, k1, k2, k3, .inr ⟨hrd, hturn⟩, fun _ h => nomatch h⟩ hok'

/-! ### The hypotheses are met -/

/-- The user closes while a message is being written; nothing comes back. -/
def closingUser : List Choice := [A (.call .read), A .ret, A (.call (.first 5 [2, 3] true true)), A (.call (.close 3 true))]

set_option maxRecDepth 20000 in
example : (run {} closingUser).w.ub = false ∧ (run {} closingUser).stack = [] ∧ asked (run {} closingUser).w.log = true ∧
    hooks (run {} closingUser).w.log = 0 ∧ (run {} closingUser).w.pend = true := by decide

/-- A message, a ping and a pong are queued when the peer closes: four completions are needed. -/
def beforeClose : List Choice :=
  [A (.call .read), A .ret, A (.call (.first 5 [2, 3] true true)), A (.call (.ping [1])), A (.call (.pong [1]))]
def afterClose : List Choice := (List.replicate 3 [A (.written .success), A .ret, A .ret]).flatten

instance (s : State) : Decidable (listening s) := by unfold listening; exact inferInstance

set_option maxRecDepth 20000 in
example : okRun {} beforeClose = true ∧ (run {} beforeClose).w.ub = false ∧ listening (run {} beforeClose) ∧ .onError ∉ (run {} beforeClose).w.log ∧
    asked (run {} beforeClose).w.log = false ∧
    okRun (step (run {} beforeClose) (A (.gotClose 2))) afterClose = true ∧
    (run (step (run {} beforeClose) (A (.gotClose 2))) afterClose).stack = [] ∧
    hooks (run (step (run {} beforeClose) (A (.gotClose 2))) afterClose).w.log = 0 ∧
    completions (step (run {} beforeClose) (A (.gotClose 2))) afterClose = 3 ∧
    hooks (run (step (run {} beforeClose) (A (.gotClose 2))) (afterClose ++ [A (.written .success), A .ret, A .ret])).w.log = 1 := by decide

/-- A failed connection at rest whose close hook has not run. -/
example : okRun {} failing = true ∧ .onError ∈ (run {} failing).w.log ∧ asked (run {} failing).w.log = false ∧ hooks (run {} failing).w.log = 0 ∧
    (run {} failing).stack = [] ∧ (run {} failing).w.ub = false := by
  set_option maxRecDepth 20000 in decide

end Cio.WsQueue
