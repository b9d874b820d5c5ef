import Verif.HttpLife.Acc
/-
C26: the life of an HTTP connection.

What is observed is `log` (newest first): callbacks of location handlers, responses handed to the stream, handlers allocated and freed, the start of the
next request, closing, and the release of the client.  `run init cs = some s`: `s` is reached from an accepted connection by events, parser callbacks,
user actions and answers of the operating system `cs`.
-/
namespace Cio.HttpLife

/-- Everything that holds in executions that obey the rules. -/
structure Full (s : State) : Prop where
  inv : Inv s
  acc : Acc s.w

theorem full_init : Full init := by
  refine ⟨inv_init, ?_⟩
  constructor <;> simp [init, live, okCb]

theorem full_step {s s' : State} (h : Full s) (c : Choice) (hr : Rule s c) (hs : step s c = some s') : Full s' := by
  refine ⟨inv_step h.inv c hr hs, ?_⟩
  rcases h.inv with ho | hc
  · refine acc_step h.acc c (by rw [ho.so]; simp) (fun _ _ hp => ho.hs hp) hr.url ?_ hs
    intro rest hst hf
    have hd : s.w.dead = false := by
      have hp := parsing_of (hst ▸ ho) (by simp [strip]) (by simp)
      have := ho.dd
      rw [hst] at this
      simpa [hp, topExec, topTail] using this
    exact ho.hn hd (Or.inl (ho.uu (by rw [hst]; simp [hasUrl, Item.isUrl]))) (Or.inl hf)
  · by_cases hfr : s.w.sock = .freed
    · exfalso
      obtain ⟨w, st⟩ := s
      obtain ⟨h1, h2, h3, h4, h5, h6, h7⟩ := hc
      simp only at h1 h2 h3 h4 h5 h6 h7 hfr
      rcases h7 with ⟨rfl, hrun, hsock, hrd, hwr⟩ | ⟨rfl, hrun, hsock, hsc⟩
      · simp only [step, h2] at hs
        simp [eventStep, hrd, hwr, h4, h5, h1, h6, hfr] at hs
        split at hs <;> simp at hs
      · simp [hfr] at hsock
    · refine acc_step h.acc c hfr ?_ hr.url ?_ hs
      · intro _ _ _; exact hc.hd
      · intro rest hst
        rcases hc.st with h | h
        · rw [h.1] at hst; simp at hst
        · rw [h.1] at hst; simp at hst

theorem full_run {s : State} (h : Full s) (cs : List Choice) (ho : Obeys s cs) {s' : State} (hs : run s cs = some s') : Full s' := by
  induction cs generalizing s with
  | nil => simp [run] at hs; subst hs; exact h
  | cons c cs ih =>
    unfold run at hs
    split at hs
    · next s1 h1 => exact ih (full_step h c ho.1 h1) (ho.2 _ h1) hs
    · simp at hs

/- ### Without any rule -/

/-- C26: at most one response is given to the stream per request: between two responses the server has become ready for the next request. -/
theorem one_response_per_request (cs : List Choice) {s : State} (hs : run init cs = some s) {a b c : List Ev} {k k' : Kind}
    (hl : s.w.log = a ++ .response k' :: b ++ .response k :: c) : Ev.restarted ∈ b :=
  okLog_split (logInv_run logInv_init cs hs).ok (Or.inl ⟨k', rfl⟩) hl

/-- C26: behind a response no callback of the location handler is called for the same request. -/
theorem no_callback_after_response (cs : List Choice) {s : State} (hs : run init cs = some s) {a b c : List Ev} {k : Kind} {cb : Cb}
    (hl : s.w.log = a ++ .callback cb :: b ++ .response k :: c) : Ev.restarted ∈ b :=
  okLog_split (logInv_run logInv_init cs hs).ok (Or.inr ⟨cb, rfl⟩) hl

/- ### With the rules -/

/-- C26: no null pointer and no released client is used. -/
theorem no_undefined_behaviour_partial (cs : List Choice) (ho : Obeys init cs) {s : State} (hs : run init cs = some s) : s.w.ub = false := by
  rcases (full_run full_init cs ho hs).inv with h | h
  · exact h.nu
  · exact h.nu

/-- C26: the client is closed at most once and released at most once. -/
theorem closed_and_released_once_partial (cs : List Choice) (ho : Obeys init cs) {s : State} (hs : run init cs = some s) :
    s.w.log.count .closing ≤ 1 ∧ s.w.log.count .freed ≤ 1 := by
  have h := full_run full_init cs ho hs
  constructor
  · rw [h.acc.cl]
    rcases h.inv with h | h
    · rw [h.c0]; omega
    · rw [h.c1]; omega
  · by_cases hf : s.w.sock = .freed
    · rw [h.acc.fd.1 hf]; omega
    · rw [h.acc.fd.2 hf]; omega

/-- C26: when the client is released nothing is under way and nothing happens any more: every handler allocated for it has been freed, once. -/
theorem released_is_final_partial (cs : List Choice) (ho : Obeys init cs) {s : State} (hs : run init cs = some s) (hf : Ev.freed ∈ s.w.log) :
    s.stack = [] ∧ (∀ c, step s c = none) ∧ s.w.log.count .closing = 1 ∧
    ∀ id, s.w.log.count (.handlerFree id) = s.w.log.count (.handlerAlloc id) := by
  have h := full_run full_init cs ho hs
  have hfr : s.w.sock = .freed := by
    refine Classical.byContradiction fun hn => ?_
    have := h.acc.fd.2 hn
    rw [List.count_eq_zero] at this
    exact this hf
  rcases h.inv with h1 | h1
  · have := h1.so; rw [hfr] at this; simp at this
  · obtain ⟨c1, c2, c3, c4, c5, c6, c7⟩ := h1
    rcases c7 with ⟨hst, hrun, hsock, hrd, hwr⟩ | ⟨hst, hrun, hsock, hsc⟩
    · refine ⟨hst, ?_, by rw [h.acc.cl, c1], ?_⟩
      · intro c
        obtain ⟨w, st⟩ := s
        simp only at hst hfr c1 c2 c4 c5 c6 hrd hwr
        subst hst
        simp only [step, c2]
        simp only [Bool.false_eq_true, if_false, eventStep, hrd, hwr, c4, c5, c1, c6, hfr]
        split <;> simp
      · intro id
        by_cases hid : id < s.w.allocs
        · rw [(h.acc.al id).1 hid, (h.acc.fr id).1 ⟨hid, by rw [c6]; simp⟩]
        · rw [(h.acc.al id).2 hid, (h.acc.fr id).2 (fun hh => hid hh.1)]
    · rw [hfr] at hsock; simp at hsock

/-- C26: in every state each handler was allocated at most once and freed at most once, and not freed without being allocated. -/
theorem handlers_freed_at_most_once_partial (cs : List Choice) (ho : Obeys init cs) {s : State} (hs : run init cs = some s) (id : Nat) :
    s.w.log.count (.handlerFree id) ≤ s.w.log.count (.handlerAlloc id) ∧ s.w.log.count (.handlerAlloc id) ≤ 1 := by
  have h := full_run full_init cs ho hs
  by_cases hid : id < s.w.allocs
  · rw [(h.acc.al id).1 hid]
    by_cases hh : s.w.handler = some id
    · rw [(h.acc.fr id).2 (fun hx => hx.2 hh)]; omega
    · rw [(h.acc.fr id).1 ⟨hid, hh⟩]; omega
  · rw [(h.acc.al id).2 hid, (h.acc.fr id).2 (fun hx => hid hx.1)]; omega

theorem live_split {l : List Ev} (h : live l = true) : ∃ b1 id b2, l = b1 ++ .handlerAlloc id :: b2 ∧ ∀ id', Ev.handlerFree id' ∉ b1 := by
  induction l with
  | nil => simp [live] at h
  | cons e l ih =>
    cases e with
    | handlerAlloc id => exact ⟨[], id, l, rfl, by simp⟩
    | handlerFree id => simp [live] at h
    | _ =>
      obtain ⟨b1, id, b2, rfl, hn⟩ := ih h
      exact ⟨_ :: b1, id, b2, rfl, by simpa using hn⟩

theorem okCb_split {l : List Ev} (h : okCb l = true) {a b : List Ev} {cb : Cb} (hl : l = a ++ .callback cb :: b) : live b = true := by
  induction a generalizing l with
  | nil => subst hl; simp [okCb] at h; exact h.1
  | cons e a ih =>
    subst hl
    have : okCb (a ++ .callback cb :: b) = true := by cases e <;> simp_all [okCb]
    exact ih this rfl

/-- C26: a callback of a handler is called only behind its allocation and before it is freed. -/
theorem callbacks_while_handler_lives_partial (cs : List Choice) (ho : Obeys init cs) {s : State} (hs : run init cs = some s) {a b : List Ev} {cb : Cb}
    (hl : s.w.log = a ++ .callback cb :: b) : ∃ b1 id b2, b = b1 ++ .handlerAlloc id :: b2 ∧ ∀ id', Ev.handlerFree id' ∉ b1 :=
  live_split (okCb_split (full_run full_init cs ho hs).acc.cb hl)

/-- C26: a connection that is open, idle and not upgraded is supervised: one of the two timers is running, so it can not hang for ever; and it is either
reading or waiting for its response to be written. -/
theorem idle_is_supervised (cs : List Choice) (ho : Obeys init cs) {s : State} (hs : run init cs = some s) (hi : s.stack = [])
    (hc : Ev.closing ∉ s.w.log) (hu : s.w.upgrade = false) :
    (s.w.reqT.armed = true ∨ s.w.respT.armed = true) ∧ (s.w.reading = true ∨ s.w.respT.armed = true) := by
  have hf := full_run full_init cs ho hs
  rcases hf.inv with h | h
  · rw [hi] at h
    have hp : s.w.parsing = 0 := by rcases h.shape with h | h | h <;> simp_all [deep]
    have h1 := h.b4 hp hu
    have h2 := h.a0 hp
    have h3 := h.b5
    have h4 := h.b1
    have h5 := h.rc
    have h6 := h.c1
    simp only [hasErr, hasEnd, strip] at h1 h2 h3
    grind
  · exfalso
    have := hf.acc.cl
    rw [h.c1, List.count_eq_zero.2 hc] at this
    omega

/-- C26: a timer that expires acts: a response that closes the connection is given to the stream, or the connection is closed. -/
theorem timeout_acts (cs : List Choice) (ho : Obeys init cs) {s s' : State} (hs : run init cs = some s) (hi : s.stack = []) (c : Choice)
    (hc : c.act = .requestTimeout ∨ c.act = .responseTimeout) (h1 : step s c = some s') :
    s'.w.log = .response .closing :: s.w.log ∨ Ev.closing ∈ s'.w.log := by
  have hf := full_run full_init cs ho hs
  obtain ⟨w, st⟩ := s
  simp only at hi
  subst hi
  have hnu : w.ub = false := no_undefined_behaviour_partial cs ho hs
  have hp : w.parsing = 0 := by
    rcases hf.inv with h | h
    · rcases h.shape with h | h | h <;> simp_all [deep]
    · exact h.p0
  have hcl : ∀ (v : World) (l : Bool), Ev.closing ∈ (closeClient v l).log := by
    intro v l
    unfold closeClient bsClose streamClose freeHandler
    cases v.handler <;> cases l <;> simp [World.ev] <;> split <;> simp
  have key : ∀ v : World, v.parsing = 0 → v.log = w.log →
      (respondOrMark v c).1.log = .response .closing :: w.log ∨ Ev.closing ∈ (respondOrMark v c).1.log := by
    intro v hv hl
    unfold respondOrMark writeResponse mark
    cases hw : v.written <;> cases ha : c.arm <;> cases ho : c.out <;> simp [hv, hl, hcl, World.ev]
  simp only [step, hnu] at h1
  rcases hc with hc | hc <;> simp [eventStep, hc] at h1
  · obtain ⟨_, rfl⟩ := h1
    exact key _ hp rfl
  · obtain ⟨_, rfl⟩ := h1
    exact key _ hp rfl

/-- A choice where the operating system does what it is asked to do, at once. -/
def Choice.of (a : Act) : Choice := { act := a }

/-- C26: a handler that answers an upgrade request with 101 in its headers-complete callback, written at once, and skips the body gets the connection for
itself: the server does not read and has no timer running, the handler is not freed, and nothing but `close` of the user can happen (a further
response is refused). -/
theorem upgraded_is_left_alone (w : World) (body cb : Bool) (ho : Open w [.exec false, .bsRet]) (hph : w.phase = .header) (hd : w.dead = false)
    (hcl : w.toBeClosed = false) (hf : w.fired = false) (ht : w.reqT.set = true) :
    ∃ s', run ⟨w, [.exec false, .bsRet]⟩
        ([.of (.onHeaders true true body true), .of (.respond .switching cb), .of .go] ++ (if cb then [.of (.ret .success)] else []) ++ [.of .go, .of .go,
          .of (.ret .skipBody), .of (.onMessage false), .of .go, .of .parsed, .of .go, .of .go]) = some s' ∧
      s'.stack = [] ∧ s'.w.reading = false ∧ s'.w.writing = false ∧ s'.w.reqT.armed = false ∧ s'.w.respT.armed = false ∧ s'.w.handler = w.handler ∧
      ∀ c s'', step s' c = some s'' → c.act = .userClose ∨ ((∃ k b, c.act = .userRespond k b) ∧ s'' = s') := by
  have hp : w.parsing = 1 := parsing_of ho (by simp [strip]) (by simp)
  have hr : w.running = 1 := by rcases ho.shape with h | h | h <;> omega
  have hrd : w.reading = false := by rcases ho.shape with h | h | h <;> simp_all
  have hwr : w.written = false := by have := ho.wf; cases h : w.written <;> simp_all
  have hwi : w.writing = false := by have := ho.ww; cases h : w.writing <;> simp_all
  have hrc : w.reqComplete = false := by have := ho.rc; cases h : w.reqComplete <;> simp_all
  have hci : w.closeImm = false := by have := ho.b5; cases h : w.closeImm <;> simp_all [hasEnd, hasErr, Item.isEnd, Item.isErr]
  have hne : w.handler ≠ none := ho.hn hd (Or.inl hph) (Or.inl hf)
  have hsk : w.skip = false := by have := ho.sk; cases h : w.skip <;> simp_all
  have hnu := ho.nu
  have hso := ho.so
  have hsc := ho.sc
  cases cb
  all_goals
    simp [run, step, Choice.of, hnu, hso, onHeaders, userStep, writeResponse, hwr, Timer.arm, World.ev, writtenStep, Timer.cancel, writtenEndStep, hci, restartStep, hrc,
      execStep, hd, hph, onMessage, callHandler, tailStep, hcl, hr, hsc, hp, hrd, hwi, ht, hf, hne, hsk]
    intro c s'' h
    simp [eventStep] at h
    split at h <;> simp_all
    next k b _ => exact ⟨⟨k, by cases b <;> simp⟩, by rw [← h]; simp [writeResponse]⟩

end Cio.HttpLife
