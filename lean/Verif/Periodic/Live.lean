import Verif.Periodic.Props
/-
The program periodic_timer.c comes to its end if the operating system does not fail, and never does if arming the timer fails (C103).
-/
namespace Cio.Periodic

theorem run_append {c : Cfg} {as bs : List Act} {s : St} : run c s (as ++ bs) = (run c s as).bind fun s => run c s bs := by
  induction as generalizing s with
  | nil => rfl
  | cons a as ih =>
    simp only [List.cons_append, run]
    cases step c s a with
    | none => rfl
    | some s1 => simpa using ih

/-- There is a continuation in which the operating system does not fail. -/
def Leads (c : Cfg) (s s' : St) : Prop := ∃ as, (∀ a ∈ as, ¬ Fails a) ∧ run c s as = some s'

theorem Leads.refl {c : Cfg} (s : St) : Leads c s s := ⟨[], by simp, rfl⟩

theorem Leads.trans {c : Cfg} {s t u : St} : Leads c s t → Leads c t u → Leads c s u := by
  rintro ⟨as, h1, h2⟩ ⟨bs, h3, h4⟩
  refine ⟨as ++ bs, ?_, ?_⟩
  · intro a ha
    rcases List.mem_append.mp ha with h | h
    · exact h1 a h
    · exact h3 a h
  · rw [run_append, h2]
    exact h4

theorem Leads.one {c : Cfg} {s t : St} (a : Act) (hf : ¬ Fails a) (hs : step c s a = some t) : Leads c s t :=
  ⟨[a], by simpa using hf, by simp [run, hs]⟩

/-- The handlers on the stack return. -/
theorem drain {c : Cfg} (k : List Timer.Item) {s : St} (hk : s.timer.stack = k) (hu : ∀ i ∈ k, i = .user false) (hub : s.timer.ub = false)
    (hph : s.phase = .running) (hq : s.pending = none) : Leads c s { s with timer := { s.timer with stack := [] } } := by
  induction k generalizing s with
  | nil =>
    have : s = { s with timer := { s.timer with stack := [] } } := by rw [← hk]
    rw [← this]
    exact .refl s
  | cons i k ih =>
    have hi := hu i (by simp)
    subst hi
    have h1 : step c s .leave = some { s with timer := { s.timer with stack := k } } := by
      simp [step, hph, hq, Timer.step, hub, hk]
    exact (Leads.one .leave (fun h => h) h1).trans
      (ih (s := { s with timer := { s.timer with stack := k } }) rfl (fun j hj => hu j (by simp [hj])) hub hph hq)

theorem Leads.inv {c : Cfg} (hp : c.period ≠ 0#64) {s s' : St} (h : Inv c false s) : Leads c s s' → Inv c false s' := by
  rintro ⟨as, h1, h2⟩
  exact run_inv hp h h2 id fun ⟨a, ha, hf⟩ => absurd hf (h1 a ha)

/-- The state in which the program is done. -/
def Finished (c : Cfg) (s : St) : Prop := s.phase = .ended ∧ s.prints.length = c.max.toNat + 1 ∧ s.timer.alive = false

theorem finish_done {c : Cfg} {s : St} (hub : s.timer.ub = false) (hph : s.phase = .running)
    (hn : s.prints.length = c.max.toNat + 1) (hq : s.pending = none) (hc : s.cancelled = true)
    (hs : ((∀ i ∈ s.timer.stack, i = .user false) ∧ s.timer.alive = false) ∨
        ∃ k, s.timer.stack = .afterClose :: k ∧ s.timer.alive = true ∧ ∀ i ∈ k, i = .user false) :
    ∃ s', Leads c s s' ∧ Finished c s' := by
  have key : ∀ s : St, s.timer.ub = false → s.phase = .running → s.prints.length = c.max.toNat + 1 → s.pending = none →
      s.cancelled = true → (∀ i ∈ s.timer.stack, i = .user false) → s.timer.alive = false → ∃ s', Leads c s s' ∧ Finished c s' := by
    intro s hub hph hn hq hc hs hal
    refine ⟨{ s with timer := { s.timer with stack := [] }, phase := .ended },
      (drain s.timer.stack rfl hs hub hph hq).trans (.one .stop (fun h => h) ?_), rfl, hn, hal⟩
    simp [step, hph, hc]
  rcases hs with ⟨hs, hal⟩ | ⟨k, h1, h2, h3⟩
  · exact key s hub hph hn hq hc hs hal
  · have hst : step c s .close = some (withTimer s { s.timer with alive := false, log := s.timer.log ++ [.hook], stack := k }) := by
      simp [step, hph, hq, Timer.step, hub, h1, h2]
    obtain ⟨s', h4, h5⟩ := key (withTimer s { s.timer with alive := false, log := s.timer.log ++ [.hook], stack := k }) hub hph hn
      (by simp [withTimer, called_append, called]) hc h3 rfl
    exact ⟨s', (Leads.one .close (fun h => h) hst).trans h4, h5⟩

/-- The pending handler runs. -/
theorem fire {c : Cfg} {s : St} (hph : s.phase = .running) (hq : s.pending = some SUCCESS) :
    step c s (.handle true 0) = some (handleTimeout c s SUCCESS true 0) := by
  simp [step, hph, hq]

/-- An armed timer leads to the call of the handler. -/
theorem to_fired {c : Cfg} {s : St} (hub : s.timer.ub = false) (hph : s.phase = .running) (o : Open c s) (hq : s.pending = none)
    (hh : s.timer.handler.isSome = true)
    (hk : (∃ t, s.timer.kern = .armed t) ∨ (∃ t, s.timer.kern = .expired t) ∧ s.due ≤ s.now) :
    ∃ s', Leads c s s' ∧ s'.pending = some SUCCESS ∧ s'.prints = s.prints ∧ s'.phase = .running := by
  obtain ⟨h0, hh0⟩ := Option.isSome_iff_exists.mp hh
  have key : ∀ s : St, s.timer.ub = false → s.phase = .running → s.timer.inLoop = true → (∀ i ∈ s.timer.stack, i = .user false) →
      s.pending = none → s.timer.handler = some h0 → (∃ t, s.timer.kern = .expired t) →
      ∃ s', Leads c s s' ∧ s'.pending = some SUCCESS ∧ s'.prints = s.prints ∧ s'.phase = .running := by
    intro s hub hph hin hus hq hh ⟨t, hk⟩
    have h1 := drain (c := c) s.timer.stack rfl hus hub hph hq
    refine ⟨_, h1.trans (.one (.event none) (fun h => h rfl) (t := withTimer { s with timer := { s.timer with stack := [] } }
      (Timer.timerRead { s.timer with stack := [] } none)) ?_), ?_, rfl, hph⟩
    · simp [step, hph, hq, Timer.step, hub, hin]
    · simp [withTimer, Timer.timerRead, hk, hh, called_append, called]
  rcases hk with ⟨t, hk⟩ | ⟨⟨t, hk⟩, _⟩
  · have h1 : Leads c s { s with now := s.now + s.due } := .one (.tick s.due) (fun h => h) (by simp [step, hph])
    have h2 : Leads c { s with now := s.now + s.due }
        { s with now := s.now + s.due, timer := { s.timer with kern := .expired t, log := s.timer.log ++ [.expired t] } } :=
      .one .expire (fun h => h) (by simp [step, hph, Timer.expire, hk])
    obtain ⟨s', h3, h4⟩ := key { s with now := s.now + s.due, timer := { s.timer with kern := .expired t, log := s.timer.log ++ [.expired t] } }
      hub hph o.inLoop o.users hq hh0 ⟨t, rfl⟩
    exact ⟨s', (h1.trans h2).trans h3, h4⟩
  · exact key s hub hph o.inLoop o.users hq hh0 ⟨t, hk⟩

theorem phase_running {s : St} (h1 : s.phase ≠ .start) (h2 : s.phase ≠ .ended) : s.phase = .running := by
  cases h : s.phase with
  | start => exact absurd h h1
  | running => rfl
  | ended => exact absurd h h2

theorem finishes_aux {c : Cfg} (hp : c.period ≠ 0#64) (n : Nat) {s : St} (h : Inv c false s) (hph : s.phase = .running)
    (hn : c.max.toNat + 1 - s.prints.length ≤ n) : ∃ s', Leads c s s' ∧ Finished c s' := by
  induction n generalizing s with
  | zero =>
    have hm := h.mode
    cases hm with
    | start h1 => rw [h1] at hph; cases hph
    | armed o => have := o.le; omega
    | fired o => have := o.le; omega
    | dead o _ hf => cases hf
    | done hn hq hi hh hk hc _ hst => exact finish_done h.ub hph hn hq hc hst
  | succ n ih =>
    -- the handler is called
    have key : ∀ s : St, Inv c false s → s.phase = .running → s.pending = some SUCCESS → c.max.toNat + 1 - s.prints.length ≤ n + 1 →
        ∃ s', Leads c s s' ∧ Finished c s' := by
      intro s h hph hq hn
      have h1 := Leads.one (c := c) (.handle true 0) (fun h => nomatch h) (fire hph hq)
      have hm := h.mode
      have hlen : (handleTimeout c s SUCCESS true 0).prints.length = s.prints.length + 1 ∧
          (handleTimeout c s SUCCESS true 0).phase = s.phase := by
        unfold handleTimeout
        rw [if_pos rfl]
        by_cases hlt : s.expirations < c.max
        · simp only [if_pos hlt]
          exact ⟨by simp [arm, withTimer], rfl⟩
        · simp only [if_neg hlt]
          exact ⟨by simp [withTimer], rfl⟩
      obtain ⟨s', h2, h3⟩ := ih (s := handleTimeout c s SUCCESS true 0) (h1.inv hp h) (by rw [hlen.2, hph]) (by rw [hlen.1]; omega)
      exact ⟨s', h1.trans h2, h3⟩
    have hm := h.mode
    cases hm with
    | start h1 => rw [h1] at hph; cases hph
    | armed o hq hh hk =>
      have hq' : s.pending = none := by
        rcases hq with hq | ⟨e, _, _, hf⟩
        · exact hq
        · cases hf
      obtain ⟨s1, h1, h2, h3, h4⟩ := to_fired h.ub hph o hq' hh hk
      obtain ⟨s', h5, h6⟩ := key s1 (h1.inv hp h) h4 h2 (by rw [h3]; exact hn)
      exact ⟨s', h1.trans h5, h6⟩
    | fired o hq => exact key s h hph hq hn
    | dead o _ hf => cases hf
    | done hn hq hi hh hk hc _ hst => exact finish_done h.ub hph hn hq hc hst

/-- C103 (as long as the operating system does not fail): wherever the program is, it can still come to its end, having printed all
`MAX_EXPIRATIONS + 1` messages and with the timer closed. -/
theorem finishes_partial {c : Cfg} (hp : c.period ≠ 0#64) {as : List Act} {s : St} (hr : run c initial as = some s)
    (hf : ∀ a ∈ as, ¬ Fails a) (hne : s.phase ≠ .ended) :
    ∃ bs s', (∀ a ∈ bs, ¬ Fails a) ∧ run c s bs = some s' ∧ s'.phase = .ended ∧ s'.prints.length = c.max.toNat + 1 ∧
      s'.timer.alive = false := by
  have h : Inv c false s := run_inv hp (inv_initial c) hr id fun ⟨a, ha, h⟩ => absurd h (hf a ha)
  have hcase : ∃ s', Leads c s s' ∧ Finished c s' := by
    by_cases hst : s.phase = .start
    · have h1 : Leads c s { arm c { s with timer := { s.timer with stack := [.user false] } } true 0 with phase := .running } :=
        .one (.first true 0) (fun h => nomatch h) (by simp [step, hst])
      obtain ⟨s', h2, h3⟩ := finishes_aux hp _ (h1.inv hp h) rfl (Nat.le_refl _)
      exact ⟨s', h1.trans h2, h3⟩
    · exact finishes_aux hp _ h (phase_running hst hne) (Nat.le_refl _)
  obtain ⟨s', ⟨bs, h1, h2⟩, h3⟩ := hcase
  exact ⟨bs, s', h1, h2, h3⟩

/-- C103 (as long as the operating system does not fail): between the calls of the handler the program always waits for a timer that is
running or has expired and is watched by the event loop, until it has printed all messages. -/
theorem never_idle_partial {c : Cfg} (hp : c.period ≠ 0#64) {as : List Act} {s : St} (hr : run c initial as = some s)
    (hf : ∀ a ∈ as, ¬ Fails a) (hrun : s.phase = .running) (hq : s.pending = none)
    (hn : s.prints.length ≤ c.max.toNat) :
    ((∃ t, s.timer.kern = .armed t) ∨ ∃ t, s.timer.kern = .expired t) ∧ s.timer.inLoop = true := by
  have h : Inv c false s := run_inv hp (inv_initial c) hr id fun ⟨a, ha, h⟩ => absurd h (hf a ha)
  cases h.mode with
  | start h1 => rw [h1] at hrun; cases hrun
  | armed o _ _ hk => exact ⟨hk.imp id fun h => h.1, o.inLoop⟩
  | fired o h => rw [hq] at h; cases h
  | dead _ _ hf => cases hf
  | done h => omega

/-! ### How it ends -/

theorem step_cancelled {c : Cfg} {s s' : St} {a : Act} (hs : step c s a = some s') (hsig : a ≠ .signal)
    (hc : s'.cancelled = true) (hc0 : s.cancelled = false) : a ≠ .stop ∧ s'.prints.length = s.prints.length + 1 ∧ s.pending = some SUCCESS ∧ ¬ s.expirations < c.max := by
  cases a with
  | tick d =>
    simp only [step] at hs
    split at hs <;> cases hs
    rw [hc0] at hc; cases hc
  | signal => exact absurd rfl hsig
  | stop =>
    simp only [step] at hs
    split at hs
    · rename_i h; rw [hc0] at h; cases h.2.2
    · cases hs
  | first ok d =>
    simp only [step] at hs
    split at hs <;> cases hs
    simp [arm, withTimer, hc0] at hc
  | expire =>
    simp only [step] at hs
    split at hs
    · cases he : Timer.expire s.timer with
      | none => rw [he] at hs; cases hs
      | some t => rw [he] at hs; cases hs; rw [hc0] at hc; cases hc
    · cases hs
  | event fail =>
    simp only [step] at hs
    split at hs
    · cases he : Timer.step s.timer (.event fail) with
      | none => rw [he] at hs; cases hs
      | some t => rw [he] at hs; cases hs; simp [withTimer, hc0] at hc
    · cases hs
  | leave =>
    simp only [step] at hs
    split at hs
    · cases he : Timer.step s.timer .leave with
      | none => rw [he] at hs; cases hs
      | some t => rw [he] at hs; cases hs; rw [hc0] at hc; cases hc
    · cases hs
  | close =>
    simp only [step] at hs
    split at hs
    · cases he : Timer.step s.timer .continue with
      | none => rw [he] at hs; cases hs
      | some t => rw [he] at hs; cases hs; simp [withTimer, hc0] at hc
    · cases hs
  | handle ok d =>
    simp only [step] at hs
    cases hp : s.pending with
    | none => rw [hp] at hs; cases hs
    | some e =>
      rw [hp] at hs
      simp only at hs
      split at hs
      · cases hs
        unfold handleTimeout at hc ⊢
        by_cases he : e = SUCCESS
        · rw [if_pos he] at hc ⊢
          subst he
          by_cases hlt : s.expirations < c.max
          · simp only [if_pos hlt] at hc
            simp [arm, withTimer, hc0] at hc
          · simp only [if_neg hlt]
            exact ⟨nofun, by simp [withTimer], trivial, hlt⟩
        · rw [if_neg he] at hc
          rw [hc0] at hc; cases hc
      · cases hs

/-- The event loop is only cancelled by a signal or after the last message. -/
theorem cancelled_why {c : Cfg} (hp : c.period ≠ 0#64) {as : List Act} {s0 s : St} {f : Bool} (h : Inv c f s0) (hr : run c s0 as = some s)
    (h0 : s0.cancelled = true → s0.prints.length = c.max.toNat + 1) (hsig : Act.signal ∉ as) :
    s.cancelled = true → s.prints.length = c.max.toNat + 1 := by
  induction as generalizing s0 f with
  | nil => cases hr; exact h0
  | cons a as ih =>
    simp only [run] at hr
    cases hs : step c s0 a with
    | none => rw [hs] at hr; cases hr
    | some s1 =>
      rw [hs] at hr
      have hi1 : Inv c true s1 := step_inv hp h hs (fun _ => rfl) (fun _ => rfl)
      refine ih hi1 hr ?_ (fun hm => hsig (by simp [hm]))
      intro hc
      by_cases hc0 : s0.cancelled = true
      · -- after the last message nothing is printed
        have hn := h0 hc0
        cases h.mode with
        | start _ _ _ _ h5 => rw [h5] at hn; simp at hn
        | armed o => have := o.le; omega
        | fired o => have := o.le; omega
        | dead o => have := o.le; omega
        | done _ hq =>
          have hpr : s1.prints = s0.prints := by
            cases a with
            | handle => simp [step, hq] at hs
            | tick d => simp only [step] at hs; split at hs <;> cases hs; rfl
            | signal => simp only [step] at hs; cases hs; rfl
            | stop => simp only [step] at hs; split at hs <;> cases hs; rfl
            | first ok d => simp only [step] at hs; split at hs <;> cases hs; rfl
            | expire =>
              simp only [step] at hs
              split at hs
              · cases he : Timer.expire s0.timer with
                | none => rw [he] at hs; cases hs
                | some t => rw [he] at hs; cases hs; rfl
              · cases hs
            | event fail =>
              simp only [step] at hs
              split at hs
              · cases he : Timer.step s0.timer (.event fail) with
                | none => rw [he] at hs; cases hs
                | some t => rw [he] at hs; cases hs; rfl
              · cases hs
            | leave =>
              simp only [step] at hs
              split at hs
              · cases he : Timer.step s0.timer .leave with
                | none => rw [he] at hs; cases hs
                | some t => rw [he] at hs; cases hs; rfl
              · cases hs
            | close =>
              simp only [step] at hs
              split at hs
              · cases he : Timer.step s0.timer .continue with
                | none => rw [he] at hs; cases hs
                | some t => rw [he] at hs; cases hs; rfl
              · cases hs
          rw [hpr]
          exact hn
      · have hc0' : s0.cancelled = false := by simpa using hc0
        obtain ⟨_, h2, h3, h4⟩ := step_cancelled hs (fun hx => hsig (by simp [hx])) hc hc0'
        cases h.mode with
        | start _ _ hq => rw [h3] at hq; cases hq
        | armed o hq =>
          rcases hq with hq | ⟨e, he, hq, _⟩
          · rw [h3] at hq; cases hq
          · rw [h3] at hq; cases hq; exact absurd rfl he
        | dead o hq =>
          rcases hq with hq | ⟨e, he, hq, _⟩
          · rw [h3] at hq; cases hq
          · rw [h3] at hq; cases hq; exact absurd rfl he
        | done _ hq => rw [h3] at hq; cases hq
        | fired o =>
          have h5 : ¬ s0.expirations.toNat < c.max.toNat := h4
          have := o.le
          have := o.count
          omega

theorem ended_why {c : Cfg} {as : List Act} {s0 s : St} (hr : run c s0 as = some s) (h0 : s0.phase = .ended → s0.cancelled = true)
    (hf : ∀ a ∈ as, ¬ Fails a) : s.phase = .ended → s.cancelled = true := by
  induction as generalizing s0 with
  | nil => cases hr; exact h0
  | cons a as ih =>
    simp only [run] at hr
    cases hs : step c s0 a with
    | none => rw [hs] at hr; cases hr
    | some s1 =>
      rw [hs] at hr
      refine ih hr ?_ (fun b hb => hf b (by simp [hb]))
      have hfa := hf a (by simp)
      intro he
      cases a with
      | tick d => simp only [step] at hs; split at hs <;> cases hs; exact h0 he
      | signal => simp only [step] at hs; cases hs; rfl
      | stop =>
        simp only [step] at hs
        split at hs
        · rename_i h; cases hs; exact h.2.2
        · cases hs
      | first ok d =>
        cases ok with
        | false => exact absurd rfl hfa
        | true => simp only [step] at hs; split at hs <;> cases hs; cases he
      | expire =>
        simp only [step] at hs
        split at hs
        · rename_i h
          cases hx : Timer.expire s0.timer with
          | none => rw [hx] at hs; cases hs
          | some t => rw [hx] at hs; cases hs; exact h0 he
        · cases hs
      | event fail =>
        simp only [step] at hs
        split at hs
        · cases hx : Timer.step s0.timer (.event fail) with
          | none => rw [hx] at hs; cases hs
          | some t => rw [hx] at hs; cases hs; exact h0 he
        · cases hs
      | leave =>
        simp only [step] at hs
        split at hs
        · cases hx : Timer.step s0.timer .leave with
          | none => rw [hx] at hs; cases hs
          | some t => rw [hx] at hs; cases hs; exact h0 he
        · cases hs
      | close =>
        simp only [step] at hs
        split at hs
        · cases hx : Timer.step s0.timer .continue with
          | none => rw [hx] at hs; cases hs
          | some t => rw [hx] at hs; cases hs; exact h0 he
        · cases hs
      | handle ok d =>
        simp only [step] at hs
        cases hp : s0.pending with
        | none => rw [hp] at hs; cases hs
        | some e =>
          rw [hp] at hs
          simp only at hs
          split at hs
          · rename_i hrun
            cases hs
            exfalso
            have : (handleTimeout c s0 e ok d).phase = s0.phase := by
              unfold handleTimeout
              by_cases he : e = SUCCESS
              · rw [if_pos he]
                by_cases hlt : s0.expirations < c.max
                · simp only [if_pos hlt]; rfl
                · simp only [if_neg hlt]; rfl
              · rw [if_neg he]
            rw [this, hrun] at he
            cases he
          · cases hs

/-- C103 (without failures of the operating system and without signals): the program ends only after all `MAX_EXPIRATIONS + 1`
messages. -/
theorem ends_only_when_done_partial {c : Cfg} (hp : c.period ≠ 0#64) {as : List Act} {s : St} (hr : run c initial as = some s)
    (hf : ∀ a ∈ as, ¬ Fails a) (hsig : Act.signal ∉ as) (he : s.phase = .ended) : s.prints.length = c.max.toNat + 1 :=
  cancelled_why hp (inv_initial c) hr (fun h => nomatch h) hsig (ended_why hr (fun h => nomatch h) hf he)

/-! ### When arming the timer fails -/

/-- The timer will never expire again, and the program does not know. -/
structure Stuck (s : St) : Prop where
  kern : s.timer.kern = .idle
  handler : s.timer.handler.isSome = true
  pending : s.pending ≠ some SUCCESS
  ub : s.timer.ub = false
  users : ∀ i ∈ s.timer.stack, i = .user false
  phase : s.phase ≠ .start
  inLoop : s.timer.inLoop = true
  alive : s.timer.alive = true

theorem stuck_step {c : Cfg} {s s' : St} {a : Act} (h : Stuck s) (hs : step c s a = some s') :
    Stuck s' ∧ s'.prints = s.prints ∧ (a ≠ .signal → s'.cancelled = s.cancelled) ∧ (a ≠ .stop → s'.phase = s.phase) := by
  obtain ⟨h0, hh0⟩ := Option.isSome_iff_exists.mp h.handler
  cases a with
  | tick d =>
    simp only [step] at hs
    split at hs <;> cases hs
    exact ⟨⟨h.kern, h.handler, h.pending, h.ub, h.users, h.phase, h.inLoop, h.alive⟩, rfl, fun _ => rfl, fun _ => rfl⟩
  | signal =>
    simp only [step] at hs
    cases hs
    exact ⟨⟨h.kern, h.handler, h.pending, h.ub, h.users, h.phase, h.inLoop, h.alive⟩, rfl, fun h => absurd rfl h, fun _ => rfl⟩
  | stop =>
    simp only [step] at hs
    split at hs <;> cases hs
    exact ⟨⟨h.kern, h.handler, h.pending, h.ub, h.users, (fun h => nomatch h), h.inLoop, h.alive⟩, rfl, fun _ => rfl, fun h => absurd rfl h⟩
  | first ok d =>
    simp only [step] at hs
    split at hs
    · rename_i hx; exact absurd hx h.phase
    · cases hs
  | expire =>
    simp only [step, Timer.expire, h.kern] at hs
    split at hs <;> cases hs
  | event fail =>
    simp only [step] at hs
    split at hs
    · rename_i hc
      unfold Timer.step at hs
      rw [if_neg (by rw [h.ub]; simp)] at hs
      cases hstk : s.timer.stack with
      | cons i k => rw [hstk] at hs; cases hs
      | nil =>
        rw [hstk] at hs
        simp only at hs
        rw [h.inLoop] at hs
        cases fail with
        | some e =>
          simp only [if_true, Timer.timerRead, hh0, Option.map_some, Option.some.injEq] at hs
          subst hs
          refine ⟨⟨h.kern, rfl, ?_, h.ub, by simp [withTimer, hstk], h.phase, h.inLoop, h.alive⟩, rfl, fun _ => rfl, fun _ => rfl⟩
          simp only [withTimer, called_append, called]
          simpa using hc.2.2
        | none =>
          simp only [if_true, Timer.timerRead, h.kern, Option.map_some, Option.some.injEq] at hs
          subst hs
          refine ⟨⟨h.kern, h.handler, ?_, h.ub, by simp [withTimer, hstk], h.phase, h.inLoop, h.alive⟩, rfl, fun _ => rfl, fun _ => rfl⟩
          simp [withTimer, called_self]
    · cases hs
  | leave =>
    simp only [step] at hs
    split at hs
    · unfold Timer.step at hs
      rw [if_neg (by rw [h.ub]; simp)] at hs
      cases hstk : s.timer.stack with
      | nil => rw [hstk] at hs; cases hs
      | cons i k =>
        have hi := h.users i (by rw [hstk]; simp)
        subst hi
        rw [hstk] at hs
        simp only [Option.map_some, Option.some.injEq] at hs
        subst hs
        exact ⟨⟨h.kern, h.handler, h.pending, h.ub, fun i hi => h.users i (by rw [hstk]; simp [hi]), h.phase, h.inLoop, h.alive⟩, rfl,
          fun _ => rfl, fun _ => rfl⟩
    · cases hs
  | close =>
    simp only [step] at hs
    split at hs
    · unfold Timer.step at hs
      rw [if_neg (by rw [h.ub]; simp)] at hs
      cases hstk : s.timer.stack with
      | nil => rw [hstk] at hs; cases hs
      | cons i k =>
        have hi := h.users i (by rw [hstk]; simp)
        subst hi
        rw [hstk] at hs
        cases hs
    · cases hs
  | handle ok d =>
    simp only [step] at hs
    cases hp : s.pending with
    | none => rw [hp] at hs; cases hs
    | some e =>
      rw [hp] at hs
      simp only at hs
      split at hs
      · cases hs
        unfold handleTimeout
        rw [if_neg (fun he => h.pending (by rw [hp, he]))]
        exact ⟨⟨h.kern, h.handler, (by simp), h.ub, h.users, h.phase, h.inLoop, h.alive⟩, rfl, fun _ => rfl, fun _ => rfl⟩
      · cases hs

theorem stuck_run {c : Cfg} {as : List Act} {s s' : St} (h : Stuck s) (hr : run c s as = some s') :
    Stuck s' ∧ s'.prints = s.prints ∧ (Act.signal ∉ as → s'.cancelled = s.cancelled) ∧
      (Act.signal ∉ as → s.cancelled = false → s'.phase = s.phase) := by
  induction as generalizing s with
  | nil => cases hr; exact ⟨h, rfl, fun _ => rfl, fun _ _ => rfl⟩
  | cons a as ih =>
    simp only [run] at hr
    cases hs : step c s a with
    | none => rw [hs] at hr; cases hr
    | some s1 =>
      rw [hs] at hr
      obtain ⟨h1, h2, h3, h4⟩ := stuck_step h hs
      obtain ⟨h5, h6, h7, h8⟩ := ih h1 hr
      have hsg : Act.signal ∉ a :: as → a ≠ .signal ∧ Act.signal ∉ as := fun hx => ⟨fun he => hx (by simp [he]), fun he => hx (by simp [he])⟩
      refine ⟨h5, by rw [h6, h2], fun hx => by rw [h7 (hsg hx).2, h3 (hsg hx).1], fun hx hc => ?_⟩
      rw [h8 (hsg hx).2 (by rw [h3 (hsg hx).1, hc]), h4]
      rintro rfl
      simp only [step] at hs
      split at hs
      · rename_i hy; rw [hc] at hy; cases hy.2.2
      · cases hs

/-- C103, what does not hold: if arming the timer fails in the handler, the program goes on for ever and does nothing: whatever happens
afterwards, it prints nothing more, the timer is never closed, and the event loop only ends if a signal comes. -/
theorem arming_failed_hangs {c : Cfg} (hp : c.period ≠ 0#64) {as bs : List Act} {s s' s'' : St} {d : Nat} (hr : run c initial as = some s)
    (hq : s.pending = some SUCCESS) (hlt : s.prints.length < c.max.toNat) (hs : step c s (.handle false d) = some s')
    (hb : run c s' bs = some s'') :
    s''.prints = s'.prints ∧ s''.timer.alive = true ∧ (Act.signal ∉ as → Act.signal ∉ bs → s''.phase = .running) := by
  have h : Inv c true s := run_inv hp (inv_initial c) hr (by simp) (by simp)
  have hcan : Act.signal ∉ as → s.cancelled = false := by
    intro hsig
    cases hc : s.cancelled with
    | false => rfl
    | true =>
      have := cancelled_why hp (inv_initial c) hr (fun h => nomatch h) hsig hc
      omega
  cases h.mode with
  | start _ _ hx => rw [hq] at hx; cases hx
  | armed o hx =>
    rcases hx with hx | ⟨e, he, hx, _⟩
    · rw [hq] at hx; cases hx
    · rw [hq] at hx; cases hx; exact absurd rfl he
  | dead o hx =>
    rcases hx with hx | ⟨e, he, hx, _⟩
    · rw [hq] at hx; cases hx
    · rw [hq] at hx; cases hx; exact absurd rfl he
  | done _ hx => rw [hq] at hx; cases hx
  | fired o _ hh hk hd =>
    have hlt' : s.expirations < c.max := by
      have : s.expirations.toNat < c.max.toNat := by rw [o.count]; exact hlt
      exact this
    simp only [step, hq] at hs
    split at hs
    · rename_i hrun
      cases hs
      unfold handleTimeout at hb ⊢
      rw [if_pos rfl] at hb ⊢
      simp only [if_pos hlt'] at hb ⊢
      unfold arm at hb ⊢
      rw [arm_fails] at hb ⊢
      have key := fun hst => stuck_run (c := c) hst hb
      obtain ⟨h5, h6, h7, h8⟩ := key ⟨hk, rfl, (by simp [withTimer, called_append, called]), h.ub, o.users, o.phase, o.inLoop, o.alive⟩
      refine ⟨h6, h5.alive, fun h1 h2 => ?_⟩
      rw [h8 h2 (hcan h1)]
      exact hrun
    · cases hs

/-- C103, what does not hold: a signal, or a failure of the first arming, ends the program without closing the timer, which is still
registered in the event loop that is destroyed. -/
theorem ends_with_open_timer (c : Cfg) (hp : c.period ≠ 0#64) :
    (∃ s, run c initial [.first true 0, .signal, .leave, .stop] = some s ∧ s.phase = .ended ∧ s.timer.alive = true ∧ s.timer.inLoop = true) ∧
    ∃ s, run c initial [.first false 0] = some s ∧ s.phase = .ended ∧ s.timer.alive = true ∧ s.timer.inLoop = true := by
  have h0 : decide (c.period.toNat ≤ 0) = false := by
    rw [decide_eq_false_iff_not]
    intro h
    exact hp (BitVec.eq_of_toNat_eq (by simpa using h))
  have h1 : step c initial (.first true 0) = some
      { arm c { initial with timer := { initial.timer with stack := [.user false] } } true 0 with phase := .running } := rfl
  have h2 : step c initial (.first false 0) = some
      { arm c { initial with timer := { initial.timer with stack := [.user false] } } false 0 with phase := .ended } := rfl
  refine ⟨?_, ?_⟩
  · simp only [run, h1]
    unfold arm
    rw [h0, arm_later hp]
    simp [step, Timer.step, initial, Timer.initial, withTimer, called]
  · simp only [run, h2]
    unfold arm
    rw [arm_fails]
    simp [initial, Timer.initial, withTimer]

/-! ### Examples -/

/-- A complete run of the example program: the timer expires late twice, once so soon that `cio_timer_expires_from_now` calls the handler
itself. -/
def sample : List Act :=
  [.first true 10, .leave, .tick 5000000000, .expire, .event none, .handle true 5000000001, .handle true 3, .leave, .leave] ++
  (List.replicate 3 [.tick 6000000000, .expire, .event none, .handle true 1, .leave]).flatten ++
  [.tick 5000000000, .expire, .event none, .handle true 1, .close, .leave, .stop]

example : ((run example_ initial sample).map fun s => (s.prints, s.phase, s.timer.alive, s.cancelled)) =
    some ([5000000010, 10000000011, 16000000014, 22000000015, 28000000016, 33000000017], .ended, false, true) := by decide +kernel

example : example_.period ≠ 0#64 ∧ example_.max.toNat + 1 = 6 := by decide

/-- The situation of `arming_failed_hangs`. -/
example : ((run example_ initial [.first true 0, .leave, .tick 5000000000, .expire, .event none]).bind fun s =>
    (step example_ s (.handle false 0)).map fun s' => (s.pending, s.prints.length, s'.prints)) = some (some SUCCESS, 0, [5000000000]) := by
  decide +kernel

end Cio.Periodic
