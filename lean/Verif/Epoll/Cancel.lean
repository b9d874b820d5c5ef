import Verif.Epoll.Props
/-
Cancelling the event loop (C67).

`cio_eventloop_cancel` (epoll.c 213-218) writes to an eventfd, which is notifier 0.  The eventfd is never read.
-/
namespace Cio.Epoll

/-- What the operating system promises about the eventfd: it is reported only after a cancellation, and from then on by every `epoll_wait` that had room for all
that was ready (CONFIG_MAX_EPOLL_EVENTS is 100; the eventfd is registered level-triggered, epoll.c 86-90). -/
def StopTruthful (l : Log) : Prop :=
  ∀ p b q, l = p ++ .wait b :: q → (0 ∈ b.map Prod.fst → .op .cancel ∈ p) ∧ (.op .cancel ∈ p → b.length < 100 → 0 ∈ b.map Prod.fst)

/-! ### Helpers -/

/-- What a callback adds to the log. -/
def Quiet (t : Log) : Prop := ∀ x ∈ t, (∀ b, x ≠ .wait b) ∧ x ≠ .op (.remove 0)

theorem Quiet.append {a b : Log} (ha : Quiet a) (hb : Quiet b) : Quiet (a ++ b) := fun x hx => (List.mem_append.1 hx).elim (ha x) (hb x)

theorem specOp_quiet (l : Log) (o : Op) : ∃ t, specOp l o = l ++ t ∧ Quiet t := by
  unfold specOp
  split
  · next h =>
    refine ⟨[.op o], rfl, fun x hx => ?_⟩
    rw [List.mem_singleton] at hx
    subst hx
    refine ⟨fun b g => (nomatch g), fun g => ?_⟩
    injection g with g
    subst g
    simp [allowed] at h
  · exact ⟨[], by simp, fun x hx => (nomatch hx)⟩

theorem ops_quiet (ops : List Op) : ∀ l, ∃ t, ops.foldl specOp l = l ++ t ∧ Quiet t := by
  induction ops with
  | nil => exact fun l => ⟨[], by simp, fun x hx => (nomatch hx)⟩
  | cons o os ih =>
    intro l
    obtain ⟨t, h1, h2⟩ := specOp_quiet l o
    obtain ⟨u, h3, h4⟩ := ih (l ++ t)
    exact ⟨t ++ u, by rw [List.foldl_cons, h1, h3, List.append_assoc], h2.append h4⟩

theorem specCallback_quiet (env : Env) (l : Log) (o : Obs) (ho : (∀ b, o ≠ .wait b) ∧ o ≠ .op (.remove 0)) : ∃ t, specCallback env l o = l ++ t ∧ Quiet t := by
  obtain ⟨t, h1, h2⟩ := ops_quiet (env (l ++ [o])) (l ++ [o])
  refine ⟨o :: t, by unfold specCallback; rw [h1, List.append_assoc]; rfl, fun x hx => ?_⟩
  rcases List.mem_cons.1 hx with g | g
  · subst g; exact ho
  · exact h2 x g

theorem specEvent_quiet (env : Env) (start n : Nat) (e : Ev) (l : Log) : ∃ t, specEvent env start n e l = l ++ t ∧ Quiet t := by
  have nil : Quiet [] := fun x hx => (nomatch hx)
  have h1 : ∃ t, (if e.input && wantsRead n l then specCallback env l (.read n) else l) = l ++ t ∧ Quiet t := by
    split
    · exact specCallback_quiet env l _ ⟨fun b g => (nomatch g), fun g => (nomatch g)⟩
    · exact ⟨[], by simp, nil⟩
  obtain ⟨t, h1, h2⟩ := h1
  unfold specEvent
  dsimp only
  rw [h1]
  split
  · obtain ⟨u, h3, h4⟩ := specCallback_quiet env (l ++ t) (.write n e.error) ⟨fun b g => (nomatch g), fun g => (nomatch g)⟩
    exact ⟨t ++ u, by rw [h3, List.append_assoc], h2.append h4⟩
  · exact ⟨t, rfl, h2⟩

/-- The dispatch of a batch: it stops exactly if the eventfd is in it. -/
theorem specBatch_quiet (env : Env) (start : Nat) : ∀ (b : List (Nat × Ev)) (l : Log), .op (.remove 0) ∉ l.drop start → start ≤ l.length →
    ∃ t, (specBatch env start b l).1 = l ++ t ∧ Quiet t ∧ ((specBatch env start b l).2 = true ↔ 0 ∈ b.map Prod.fst) := by
  intro b
  induction b with
  | nil => intro l _ _; exact ⟨[], by simp [specBatch], fun x hx => (nomatch hx), by simp [specBatch]⟩
  | cons x rest ih =>
    obtain ⟨n, e⟩ := x
    intro l hl hs
    unfold specBatch
    by_cases hr : removed n (l.drop start) = true
    · rw [if_pos hr]
      obtain ⟨t, h1, h2, h3⟩ := ih l hl hs
      have hn : n ≠ 0 := by rintro rfl; exact hl ((removed_iff _ _).1 hr)
      exact ⟨t, h1, h2, by rw [h3, List.map_cons, List.mem_cons]; exact ⟨Or.inr, fun g => g.elim (fun g => absurd g.symm hn) id⟩⟩
    · rw [if_neg hr]
      by_cases hn : n = 0
      · subst hn
        rw [if_pos rfl]
        exact ⟨[], by simp, fun x hx => (nomatch hx), by simp⟩
      · rw [if_neg hn]
        obtain ⟨t, h1, h2⟩ := specEvent_quiet env start n e l
        rw [h1]
        obtain ⟨u, h3, h4, h5⟩ := ih (l ++ t) (by
          rw [List.drop_append_of_le_length hs]
          exact fun g => (List.mem_append.1 g).elim hl (fun g => (h2 _ g).2 rfl)) (by rw [List.length_append]; omega)
        exact ⟨t ++ u, by rw [h3, List.append_assoc], h2.append h4, by rw [h5, List.map_cons, List.mem_cons]; exact ⟨Or.inr, fun g => g.elim (fun g => absurd g.symm hn) id⟩⟩

/-- A run, in terms of the log: it adds rounds (a wait, then callbacks); it goes on as long as the eventfd is not reported. -/
theorem specRun_rounds (env : Env) (ws : List Wait) : ∀ l : Log, ∃ t, (specRun env l ws).1 = l ++ t ∧
    ((specRun env l ws).2 = .ok → ∃ p b q, l ++ t = p ++ .wait b :: q ∧ l.length ≤ p.length ∧ 0 ∈ b.map Prod.fst) ∧
    ((specRun env l ws).2 = .error → .failed ∈ ws) ∧
    ∀ p b q, l ++ t = p ++ .wait b :: q → l.length ≤ p.length → 0 ∈ b.map Prod.fst → (specRun env l ws).2 = .ok ∧ ∀ b', .wait b' ∉ q := by
  induction ws with
  | nil =>
    intro l
    refine ⟨[], by simp [specRun], by simp [specRun], by simp [specRun], fun p b q h hp _ => ?_⟩
    have := congrArg List.length h
    simp at this
    omega
  | cons w ws ih =>
    intro l
    cases w with
    | interrupted =>
      obtain ⟨t, h1, h2, h3, h4⟩ := ih l
      exact ⟨t, h1, h2, fun g => List.mem_cons_of_mem _ (h3 g), h4⟩
    | failed =>
      refine ⟨[], by simp [specRun], by simp [specRun], by simp, fun p b q h hp _ => ?_⟩
      have := congrArg List.length h
      simp at this
      omega
    | events p0 =>
      generalize hb0 : specWait l p0 = b0
      obtain ⟨t, t1, t2, t3⟩ := specBatch_quiet env (l.length + 1) b0 (l ++ [.wait b0]) (by rw [List.drop_of_length_le (by simp)]; simp) (by simp)
      unfold specRun
      rw [hb0]
      generalize hr : specBatch env (l.length + 1) b0 (l ++ [.wait b0]) = r at t1 t3
      obtain ⟨l1, stop⟩ := r
      dsimp only at t1 t3
      subst t1
      -- the only wait of this round is its first one
      have first : ∀ (rest : Log) p b q, l ++ (.wait b0 :: (t ++ rest)) = p ++ .wait b :: q → l.length ≤ p.length →
          (p = l ∧ b = b0 ∧ q = t ++ rest) ∨ ∃ p', p = l ++ .wait b0 :: t ++ p' ∧ rest = p' ++ .wait b :: q := by
        intro rest p b q h hp
        rcases List.append_eq_append_iff.mp h with ⟨a, a1, a2⟩ | ⟨c, c1, c2⟩
        · cases a with
          | nil =>
            rw [List.nil_append, List.cons.injEq] at a2
            obtain ⟨a3, a4⟩ := a2
            injection a3 with a3
            exact .inl ⟨by rw [a1, List.append_nil], a3.symm, a4.symm⟩
          | cons y ys =>
            rw [List.cons_append, List.cons.injEq] at a2
            obtain ⟨rfl, a2⟩ := a2
            rcases List.append_eq_append_iff.mp a2 with ⟨d, d1, d2⟩ | ⟨d, d1, d2⟩
            · exact .inr ⟨d, by rw [a1, d1, List.append_assoc, List.cons_append], d2⟩
            · cases d with
              | nil => exact .inr ⟨[], by rw [a1, d1]; simp, by rw [List.nil_append] at d2; rw [← d2]; rfl⟩
              | cons z zs =>
                rw [List.cons_append, List.cons.injEq] at d2
                obtain ⟨rfl, -⟩ := d2
                exact absurd rfl ((t2 (.wait b) (by rw [d1]; simp)).1 b)
        · cases c with
          | nil =>
            rw [List.nil_append, List.cons.injEq] at c2
            obtain ⟨c3, c4⟩ := c2
            injection c3 with c3
            exact .inl ⟨by rw [c1, List.append_nil], c3, c4⟩
          | cons y ys =>
            exfalso
            rw [c1, List.length_append, List.length_cons] at hp
            omega
      cases stop with
      | true =>
        refine ⟨.wait b0 :: t, by simp, fun _ => ⟨l, b0, t, rfl, Nat.le_refl _, t3.1 rfl⟩, fun g => (nomatch g), fun p b q h hp hz => ⟨rfl, ?_⟩⟩
        rcases first [] p b q (by rw [List.append_nil]; exact h) hp with ⟨-, -, g⟩ | ⟨p', -, g⟩
        · rw [g, List.append_nil]; exact fun b' hb' => (t2 _ hb').1 b' rfl
        · cases p' <;> cases g
      | false =>
        have hz0 : 0 ∉ b0.map Prod.fst := fun g => nomatch (t3.2 g)
        obtain ⟨u, h1, h2, h3, h4⟩ := ih (l ++ [.wait b0] ++ t)
        dsimp only
        refine ⟨.wait b0 :: (t ++ u), by rw [h1]; simp, fun g => ?_, fun g => List.mem_cons_of_mem _ (h3 g), fun p b q h hp hz => ?_⟩
        · obtain ⟨p, b, q, g1, g2, g3⟩ := h2 g
          refine ⟨p, b, q, by rw [← g1]; simp, ?_, g3⟩
          simp at g2; omega
        · rcases first u p b q h hp with ⟨-, g, -⟩ | ⟨p', g1, g2⟩
          · subst g; exact absurd hz hz0
          · exact h4 p b q (by rw [g1, g2]; simp) (by rw [g1]; simp) hz

/-! ### Properties -/

/-- The runs of the loop, as observed. -/
theorem run_observed (env : Env) (as : List Act) (ws : List Wait) :
    ∃ t, (run env (exec env initial as) ws).1.log = (exec env initial as).log ++ t ∧
    ((run env (exec env initial as) ws).2 = .ok → ∃ p b q, (exec env initial as).log ++ t = p ++ .wait b :: q ∧ (exec env initial as).log.length ≤ p.length ∧ 0 ∈ b.map Prod.fst) ∧
    ((run env (exec env initial as) ws).2 = .error → .failed ∈ ws) ∧
    ∀ p b q, (exec env initial as).log ++ t = p ++ .wait b :: q → (exec env initial as).log.length ≤ p.length → 0 ∈ b.map Prod.fst →
      (run env (exec env initial as) ws).2 = .ok ∧ ∀ b', .wait b' ∉ q := by
  obtain ⟨s', h1, h2, -, -⟩ := run_spec env ws (exec env initial as) (exec_spec env as initial initial_heapOK).2.2
  obtain ⟨t, t1, t2, t3, t4⟩ := specRun_rounds env ws (exec env initial as).log
  rw [h1]
  exact ⟨t, by rw [← t1]; exact h2, t2, t3, t4⟩

/-- C67: the loop returns successfully only after it was cancelled, and with an error only if `epoll_wait` failed (not if it was merely interrupted). -/
theorem returns_only_when_cancelled (env : Env) (as : List Act) (ws : List Wait) (hk : StopTruthful (run env (exec env initial as) ws).1.log) :
    ((run env (exec env initial as) ws).2 = .ok → .op .cancel ∈ (run env (exec env initial as) ws).1.log) ∧
      ((run env (exec env initial as) ws).2 = .error → .failed ∈ ws) := by
  obtain ⟨t, t1, t2, t3, -⟩ := run_observed env as ws
  refine ⟨fun h => ?_, t3⟩
  obtain ⟨p, b, q, h1, -, h2⟩ := t2 h
  rw [t1] at hk ⊢
  rw [h1]
  exact List.mem_append_left _ ((hk p b q h1).1 h2)

/-- C67: after a cancellation, no matter whether from within or outside of a callback, the next `epoll_wait` is the last one: when its events (those before the eventfd) have been dispatched the loop
returns successfully.  (`epoll_wait` reports the eventfd unless there are 100 other events.) -/
theorem cancel_ends_loop (env : Env) (as : List Act) (ws : List Wait) (hk : StopTruthful (run env (exec env initial as) ws).1.log) (p q : Log) (b : List (Nat × Ev))
    (h : (run env (exec env initial as) ws).1.log = p ++ .wait b :: q) (hp : (exec env initial as).log.length ≤ p.length) (hc : .op .cancel ∈ p) (hb : b.length < 100) :
    (run env (exec env initial as) ws).2 = .ok ∧ ∀ b', .wait b' ∉ q := by
  obtain ⟨t, t1, -, -, t4⟩ := run_observed env as ws
  rw [t1] at h hk
  exact t4 p b q h hp ((hk p b q h).2 hc hb)

/-- A program runs a loop again after it was cancelled: it will handle events as before. -/
def RunsAgain : Prop :=
  ∀ (env : Env) (as : List Act) (ws : List Wait), StopTruthful (run env (exec env initial as) ws).1.log → (∀ w ∈ ws, ∃ n e, w = .events [(n, e)]) → .op .cancel ∉ (run env (exec env initial as) ws).1.log.drop (exec env initial as).log.length →
    (run env (exec env initial as) ws).2 = .running

/-- C67: a loop that was cancelled once is cancelled for ever, because the eventfd is never read: every later run of it returns with its first `epoll_wait` (that has room), whatever was or is registered. -/
theorem cancelled_for_ever (env : Env) (as : List Act) (ws : List Wait) (hc : .op .cancel ∈ (exec env initial as).log) (p : List (Nat × Ev))
    (hk : StopTruthful (run env (exec env initial as) (.events p :: ws)).1.log) (hb : (kernelWait (exec env initial as) p).length < 100) :
    (run env (exec env initial as) (.events p :: ws)).2 = .ok := by
  obtain ⟨t, t1, -, -, t4⟩ := run_observed env as (.events p :: ws)
  have hh := (exec_spec env as initial initial_heapOK).2.2
  obtain ⟨s', h1, h2, -, -⟩ := run_spec env (.events p :: ws) (exec env initial as) hh
  -- the first wait of the run
  have hw : ∃ q, (exec env initial as).log ++ t = (exec env initial as).log ++ .wait (kernelWait (exec env initial as) p) :: q := by
    rw [← t1, h1]
    dsimp only
    rw [h2, kernelWait_eq hh]
    generalize (exec env initial as).log = l
    unfold specRun
    obtain ⟨t, b1, -, -⟩ := specBatch_quiet env (l.length + 1) (specWait l p) (l ++ [.wait (specWait l p)]) (by rw [List.drop_of_length_le (by simp)]; simp) (by simp)
    generalize specBatch env (l.length + 1) (specWait l p) (l ++ [.wait (specWait l p)]) = r at b1 ⊢
    obtain ⟨l1, stop⟩ := r
    dsimp only at b1
    subst b1
    cases stop with
    | true => exact ⟨t, by simp⟩
    | false =>
      obtain ⟨u, u1, -⟩ := specRun_rounds env ws (l ++ [.wait (specWait l p)] ++ t)
      exact ⟨t ++ u, by dsimp only; rw [u1]; simp⟩
  obtain ⟨q, hq⟩ := hw
  rw [t1, hq] at hk
  exact (t4 _ _ q hq (Nat.le_refl _) ((hk _ _ q rfl).2 hc hb)).1

/-! ### Examples -/

/-- The callback of notifier 1 cancels the loop; the event of notifier 2 that was fetched with it is still dispatched. -/
def cancelEnv : Env := fun l => if l.getLast? = some (.read 1) then [.cancel] else []
def cancelActs : List Act := [.call (.add 1 true), .call (.registerRead 1 true), .call (.add 2 true), .call (.registerRead 2 true)]
def cancelWaits : List Wait :=
  [.events [(2, ⟨true, false, false⟩)], .events [(1, ⟨true, false, false⟩), (2, ⟨true, false, false⟩)], .interrupted, .events [(2, ⟨true, false, false⟩), (0, ⟨true, false, false⟩), (1, ⟨true, false, false⟩)],
   .events [(2, ⟨true, false, false⟩)]]

theorem cancel_run : (run cancelEnv (exec cancelEnv initial cancelActs) cancelWaits).2 = .ok ∧
    (run cancelEnv (exec cancelEnv initial cancelActs) cancelWaits).1.log.drop 4 =
      [.wait [(2, ⟨true, false, false⟩)], .read 2, .wait [(1, ⟨true, false, false⟩), (2, ⟨true, false, false⟩)], .read 1, .op .cancel, .read 2,
       .wait [(2, ⟨true, false, false⟩), (0, ⟨true, false, false⟩), (1, ⟨true, false, false⟩)], .read 2] := by decide

/-- Check of `StopTruthful`. -/
def truthful : Log → Bool → Bool
  | [], _ => true
  | .wait b :: l, c => (b.map Prod.fst).contains 0 == c && truthful l c
  | .op .cancel :: l, _ => truthful l true
  | _ :: l, c => truthful l c

theorem truthful_ok (l : Log) : ∀ (l0 : Log) (c : Bool), (c = true ↔ .op .cancel ∈ l0) → (∀ p b q, l0 ++ l = p ++ .wait b :: q → p.length < l0.length → (0 ∈ b.map Prod.fst ↔ .op .cancel ∈ p)) →
    truthful l c = true → ∀ p b q, l0 ++ l = p ++ .wait b :: q → (0 ∈ b.map Prod.fst ↔ .op .cancel ∈ p) := by
  induction l with
  | nil =>
    intro l0 c hc h0 _ p b q h
    refine h0 p b q h ?_
    have := congrArg List.length h
    simp at this
    omega
  | cons x l ih =>
    intro l0 c hc h0 ht p b q h
    have go : ∀ c', (c' = true ↔ .op .cancel ∈ l0 ++ [x]) → truthful l c' = true → (∀ b, x = .wait b → (0 ∈ b.map Prod.fst ↔ .op .cancel ∈ l0)) → (0 ∈ b.map Prod.fst ↔ .op .cancel ∈ p) := by
      intro c' h1 h2 h3
      refine ih (l0 ++ [x]) c' h1 (fun p b q hpq hlen => ?_) h2 p b q (by rw [List.append_assoc]; exact h)
      by_cases hp : p.length < l0.length
      · exact h0 p b q (by rw [List.append_assoc] at hpq; exact hpq) hp
      · have hl : p.length = l0.length := by rw [List.length_append, List.length_singleton] at hlen; omega
        rw [List.append_assoc] at hpq
        obtain ⟨e1, e2⟩ := List.append_inj hpq hl.symm
        rw [List.singleton_append, List.cons.injEq] at e2
        rw [← e1]
        exact h3 b e2.1
    cases x with
    | wait b0 =>
      unfold truthful at ht
      rw [Bool.and_eq_true, beq_iff_eq] at ht
      refine go c (by rw [hc]; simp) ht.2 (fun b1 hb1 => ?_)
      injection hb1 with hb1
      subst hb1
      rw [← hc, ← ht.1, List.contains_iff_mem]
    | read n => exact go c (by rw [hc]; simp) ht (fun b g => nomatch g)
    | write n e => exact go c (by rw [hc]; simp) ht (fun b g => nomatch g)
    | op o =>
      cases o with
      | cancel => exact go true (by simp) ht (fun b g => nomatch g)
      | _ => exact go c (by rw [hc]; simp) ht (fun b g => nomatch g)

theorem truthful_stop {l : Log} (h : truthful l false = true) : StopTruthful l := by
  intro p b q hl
  have := truthful_ok l [] false (by simp) (fun p b q _ g => nomatch g) h p b q hl
  exact ⟨this.1, fun g _ => this.2 g⟩

/-- The example meets the hypotheses. -/
example : StopTruthful (run cancelEnv (exec cancelEnv initial cancelActs) cancelWaits).1.log ∧
    (run cancelEnv (exec cancelEnv initial cancelActs) cancelWaits).2 = .ok := ⟨truthful_stop (by decide), by decide⟩

/-- C67, finding: a loop does not run again after it was cancelled, although the first run has ended long ago. -/
theorem no_second_run : ¬ RunsAgain := by
  intro h
  have := h cancelEnv (cancelActs ++ [.run cancelWaits]) [.events [(0, ⟨true, false, false⟩)]] (truthful_stop (by decide)) (by
    intro w hw
    rw [List.mem_singleton] at hw
    exact ⟨0, _, hw⟩) (by decide)
  exact absurd this (by decide)

/-- C67.  Partial: `epoll_wait` has room for the eventfd among its 100 events; and a cancelled loop cannot be run again (`no_second_run`). -/
theorem cancel_ends_loop_partial (env : Env) (as : List Act) (ws : List Wait) (hk : StopTruthful (run env (exec env initial as) ws).1.log) (p q : Log) (b : List (Nat × Ev))
    (h : (run env (exec env initial as) ws).1.log = p ++ .wait b :: q) (hp : (exec env initial as).log.length ≤ p.length) (hc : .op .cancel ∈ p) (hb : b.length < 100) :
    (run env (exec env initial as) ws).2 = .ok ∧ ∀ b', .wait b' ∉ q := cancel_ends_loop env as ws hk p q b h hp hc hb

end Cio.Epoll
