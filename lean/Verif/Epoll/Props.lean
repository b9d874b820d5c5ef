import Verif.Epoll.Lemmas
/-
Property theorems for the event loop (C32).
-/
namespace Cio.Epoll

/-! ### Specification of a single callback -/

/-- The notifier whose callback this is. -/
def callee : Obs → Option Nat
  | .read n => some n
  | .write n _ => some n
  | _ => none

/-- When a callback `o` of notifier `n` is called after the history `p`: the last `epoll_wait` of `p` reported the event `e` of `n`;
`n` was in the loop at that time and has not been removed since (even if it was added again); `e` and the registrations of `n` ask for
the callback; this event has not led to the same callback before, and since then only callbacks of notifiers reported before `n`, or
the read callback of `n` itself, have been called. -/
def Due (n : Nat) (o : Obs) (p : Log) : Prop :=
  ∃ p1 b p2 before e after,
    p = p1 ++ .wait b :: p2 ∧ (∀ b', .wait b' ∉ p2) ∧ b = before ++ (n, e) :: after ∧
    added n p1 = true ∧ .op (.remove n) ∉ p2 ∧
    (∀ x ∈ p2, ∀ m, callee x = some m → m ∈ before.map Prod.fst ∨ (x = .read n ∧ o ≠ .read n)) ∧ n ∉ before.map Prod.fst ∧
    ((o = .read n ∧ e.input = true ∧ wantsRead n p = true) ∨ (o = .write n e.error ∧ e.output = true ∧ wantsWrite n p = true))

/-- All callbacks of a log were due. -/
def AllDue (l : Log) : Prop := ∀ p o post n, l = p ++ o :: post → callee o = some n → Due n o p

/-! ### Helpers -/

theorem AllDue.snoc {l : Log} (h : AllDue l) {o : Obs} (ho : ∀ n, callee o = some n → Due n o l) : AllDue (l ++ [o]) := by
  intro p x post n hl hx
  rcases List.append_eq_append_iff.mp hl with ⟨a, h1, h2⟩ | ⟨c, h1, h2⟩
  · cases a with
    | nil =>
      simp only [List.nil_append, List.append_nil, List.cons.injEq] at h1 h2
      obtain ⟨rfl, _⟩ := h2
      subst h1
      exact ho n hx
    | cons y ys => simp at h2
  · cases c with
    | nil =>
      simp only [List.nil_append, List.append_nil] at h1 h2
      simp only [List.cons.injEq] at h2
      obtain ⟨rfl, _⟩ := h2
      subst h1
      exact ho n hx
    | cons y ys =>
      simp only [List.cons_append, List.cons.injEq] at h2
      obtain ⟨rfl, rfl⟩ := h2
      exact h p x ys n h1 hx

theorem ops_append (ops : List Op) (l : Log) : ∃ t, ops.foldl specOp l = l ++ t ∧ ∀ x ∈ t, ∃ o, x = .op o := by
  induction ops generalizing l with
  | nil => exact ⟨[], by simp, by simp⟩
  | cons o os ih =>
    simp only [List.foldl_cons]
    obtain ⟨t, h1, h2⟩ := ih (specOp l o)
    unfold specOp at h1 ⊢
    split at h1
    · rename_i hc
      rw [if_pos hc]
      refine ⟨.op o :: t, by rw [h1]; simp, ?_⟩
      intro x hx
      rw [List.mem_cons] at hx
      rcases hx with rfl | hx
      · exact ⟨o, rfl⟩
      · exact h2 x hx
    · rename_i hc
      rw [if_neg hc]
      exact ⟨t, h1, h2⟩

theorem AllDue.ops {l t : Log} (h : AllDue l) (ht : ∀ x ∈ t, ∃ o, x = .op o) : AllDue (l ++ t) := by
  induction t generalizing l with
  | nil => simpa using h
  | cons x xs ih =>
    obtain ⟨o, rfl⟩ := ht x (by simp)
    have h1 := ih (h.snoc (o := .op o) (fun n hn => by cases hn)) (fun x hx => ht x (by simp [hx]))
    simpa using h1

theorem removed_iff (n : Nat) (l : Log) : removed n l = true ↔ .op (.remove n) ∈ l := by
  unfold removed
  simp [List.contains_iff_mem]

theorem batch_due (env : Env) (p1 : Log) (b : List (Nat × Ev)) (hb : ∀ x ∈ b, x.1 = 0 ∨ added x.1 p1 = true) (hnd : (b.map Prod.fst).Nodup)
    (rest : List (Nat × Ev)) : ∀ (before : List (Nat × Ev)) (p2 : Log), b = before ++ rest → AllDue (p1 ++ .wait b :: p2) →
    (∀ b', .wait b' ∉ p2) → (∀ x ∈ p2, ∀ m, callee x = some m → m ∈ before.map Prod.fst) →
    AllDue (specBatch env (p1.length + 1) rest (p1 ++ .wait b :: p2)).1 ∧
      ∃ t, (specBatch env (p1.length + 1) rest (p1 ++ .wait b :: p2)).1 = p1 ++ .wait b :: p2 ++ t := by
  induction rest with
  | nil =>
    intro before p2 _ h _ _
    exact ⟨h, [], by simp [specBatch]⟩
  | cons x rest ih =>
    obtain ⟨n, e⟩ := x
    intro before p2 hbe h hw hc
    have hdrop : ∀ q : Log, (p1 ++ .wait b :: q).drop (p1.length + 1) = q := by
      intro q
      rw [List.drop_append, List.drop_of_length_le (by omega)]
      simp [show p1.length + 1 - p1.length = 1 by omega]
    have hbe' : b = (before ++ [(n, e)]) ++ rest := by rw [hbe]; simp
    simp only [specBatch, hdrop]
    by_cases hr : removed n p2 = true
    · rw [if_pos hr]
      refine ih (before ++ [(n, e)]) p2 hbe' h hw ?_
      intro x hx m hm
      have := hc x hx m hm
      simp [List.mem_append, this]
    · rw [if_neg hr]
      have hr' : .op (.remove n) ∉ p2 := fun h => hr ((removed_iff _ _).mpr h)
      by_cases hn : n = 0
      · rw [if_pos hn]
        exact ⟨h, [], by simp⟩
      · rw [if_neg hn]
        have hadd : added n p1 = true := by
          rcases hb (n, e) (by rw [hbe]; simp) with h | h
          · exact absurd h hn
          · exact h
        have hnb : n ∉ before.map Prod.fst := by
          rw [hbe, List.map_append, List.map_cons, List.nodup_append] at hnd
          intro hm
          exact hnd.2.2 n hm n (by simp) rfl
        -- the read callback
        have hread : ∃ q, (if e.input && wantsRead n (p1 ++ .wait b :: p2) then specCallback env (p1 ++ .wait b :: p2) (.read n)
            else p1 ++ .wait b :: p2) = p1 ++ .wait b :: (p2 ++ q) ∧ AllDue (p1 ++ .wait b :: (p2 ++ q)) ∧ (∀ b', .wait b' ∉ q) ∧
            (∀ x ∈ q, ∀ m, callee x = some m → x = .read n ∧ m = n) := by
          by_cases hin : (e.input && wantsRead n (p1 ++ .wait b :: p2)) = true
          · rw [if_pos hin]
            rw [Bool.and_eq_true] at hin
            obtain ⟨t, h1, h2⟩ := ops_append (env (p1 ++ .wait b :: p2 ++ [.read n])) (p1 ++ .wait b :: p2 ++ [.read n])
            refine ⟨.read n :: t, ?_, ?_, ?_, ?_⟩
            · unfold specCallback; rw [h1]; simp
            · have := (h.snoc (o := .read n) (fun m hm => by
                injection hm with hm
                subst hm
                exact ⟨p1, b, p2, before, e, rest, rfl, hw, hbe, hadd, hr', fun x hx m hm => .inl (hc x hx m hm), hnb,
                  .inl ⟨rfl, hin.1, hin.2⟩⟩)).ops h2
              simpa using this
            · intro b' hb'
              simp only [List.mem_cons] at hb'
              rcases hb' with hb' | hb'
              · cases hb'
              · obtain ⟨o, ho⟩ := h2 _ hb'
                cases ho
            · intro x hx m hm
              simp only [List.mem_cons] at hx
              rcases hx with rfl | hx
              · injection hm with hm
                exact ⟨rfl, hm.symm⟩
              · obtain ⟨o, rfl⟩ := h2 x hx
                cases hm
          · rw [if_neg hin]
            exact ⟨[], by simp, by simpa using h, by simp, by simp⟩
        obtain ⟨q, hq1, hq2, hq3, hq4⟩ := hread
        have hw2 : ∀ b', .wait b' ∉ p2 ++ q := fun b' hb' => by
          rw [List.mem_append] at hb'
          rcases hb' with hb' | hb'
          · exact hw _ hb'
          · exact hq3 _ hb'
        -- the write callback
        have hwrite : ∃ q', specEvent env (p1.length + 1) n e (p1 ++ .wait b :: p2) = p1 ++ .wait b :: (p2 ++ q ++ q') ∧
            AllDue (p1 ++ .wait b :: (p2 ++ q ++ q')) ∧ (∀ b', .wait b' ∉ q') ∧ (∀ x ∈ q', ∀ m, callee x = some m → m = n) := by
          unfold specEvent
          simp only [hq1, hdrop]
          by_cases hout : (!removed n (p2 ++ q) && e.output && wantsWrite n (p1 ++ .wait b :: (p2 ++ q))) = true
          · rw [if_pos hout]
            rw [Bool.and_eq_true, Bool.and_eq_true, Bool.not_eq_true'] at hout
            obtain ⟨⟨ho1, ho2⟩, ho3⟩ := hout
            obtain ⟨t, h1, h2⟩ := ops_append (env (p1 ++ .wait b :: (p2 ++ q) ++ [.write n e.error])) (p1 ++ .wait b :: (p2 ++ q) ++ [.write n e.error])
            refine ⟨.write n e.error :: t, ?_, ?_, ?_, ?_⟩
            · unfold specCallback; rw [h1]; simp
            · have := (hq2.snoc (o := .write n e.error) (fun m hm => by
                injection hm with hm
                subst hm
                refine ⟨p1, b, p2 ++ q, before, e, rest, rfl, hw2, hbe, hadd, fun hm => ?_, fun x hx m hm => ?_, hnb,
                  .inr ⟨rfl, ho2, ho3⟩⟩
                · rw [(removed_iff _ _).mpr hm] at ho1
                  cases ho1
                · rw [List.mem_append] at hx
                  rcases hx with hx | hx
                  · exact .inl (hc x hx m hm)
                  · exact .inr ⟨(hq4 x hx m hm).1, (by intro h; cases h)⟩)).ops h2
              simpa using this
            · intro b' hb'
              simp only [List.mem_cons] at hb'
              rcases hb' with hb' | hb'
              · cases hb'
              · obtain ⟨o, ho⟩ := h2 _ hb'
                cases ho
            · intro x hx m hm
              simp only [List.mem_cons] at hx
              rcases hx with rfl | hx
              · injection hm with hm
                exact hm.symm
              · obtain ⟨o, rfl⟩ := h2 x hx
                cases hm
          · rw [if_neg hout]
            exact ⟨[], by simp, by simpa using hq2, by simp, by simp⟩
        obtain ⟨q', hq1', hq2', hq3', hq4'⟩ := hwrite
        rw [hq1']
        obtain ⟨hA, t, hT⟩ := ih (before ++ [(n, e)]) (p2 ++ q ++ q') hbe' hq2' (fun b' hb' => by
            rw [List.mem_append] at hb'
            rcases hb' with hb' | hb'
            · exact hw2 _ hb'
            · exact hq3' _ hb') (fun x hx m hm => by
            simp only [List.mem_append] at hx
            rw [List.map_append, List.mem_append]
            rcases hx with (hx | hx) | hx
            · exact .inl (hc x hx m hm)
            · exact .inr (by simp [(hq4 x hx m hm).2])
            · exact .inr (by simp [hq4' x hx m hm]))
        exact ⟨hA, q ++ q' ++ t, by rw [hT]; simp⟩

theorem specWait_mem {l : Log} {p : List (Nat × Ev)} {x : Nat × Ev} (hx : x ∈ specWait l p) : x.1 = 0 ∨ added x.1 l = true := by
  have h1 := (dedup_mem _ _ x (List.mem_of_mem_take hx)).1
  rw [List.mem_filter] at h1
  simpa using h1.2

theorem run_due (env : Env) (ws : List Wait) : ∀ l : Log, AllDue l → AllDue (specRun env l ws).1 := by
  induction ws with
  | nil => exact fun l h => h
  | cons w ws ih =>
    intro l h
    cases w with
    | interrupted => exact ih l h
    | failed => exact h
    | events p =>
      simp only [specRun]
      have h1 := (batch_due env l (specWait l p) (fun x hx => specWait_mem hx)
        ((List.Sublist.map Prod.fst (List.take_sublist _ _)).nodup (dedup_nodup _ _)) (specWait l p) [] [] rfl
        (h.snoc (o := .wait (specWait l p)) (fun n hn => by cases hn)) (by simp) (by simp)).1
      generalize specBatch env (l.length + 1) (specWait l p) (l ++ [.wait (specWait l p)]) = r at h1 ⊢
      obtain ⟨l', b⟩ := r
      cases b with
      | true => exact h1
      | false => exact ih l' h1

theorem exec_due (env : Env) (as : List Act) : ∀ l : Log, AllDue l → AllDue (specExec env l as) := by
  induction as with
  | nil => exact fun l h => h
  | cons a as ih =>
    intro l h
    cases a with
    | call o =>
      simp only [specExec]
      apply ih
      unfold specOp
      split
      · exact h.snoc (o := .op o) (fun n hn => by cases hn)
      · exact h
    | run ws =>
      simp only [specExec]
      have h1 := run_due env ws l h
      generalize specRun env l ws = r at h1 ⊢
      obtain ⟨l', res⟩ := r
      cases res with
      | running => exact h1
      | ok | error => exact ih l' h1

/-! ### Properties -/

/-- C32.  Whatever the callbacks do, whatever `epoll_wait` reports and however often the loop is run: what happens is exactly what the
specification says, and the loop never touches a notifier that was removed (and may have been freed). -/
theorem loop_as_specified (env : Env) (as : List Act) :
    (exec env initial as).log = specExec env [] as ∧ (exec env initial as).ub = false := by
  have := exec_spec env as initial initial_heapOK
  exact ⟨this.1, this.2.1⟩

/-- C32.  Every callback that is called is due, in particular its notifier has not been removed since its event was fetched, no event is
dispatched twice and events are dispatched in order. -/
theorem callbacks_due (env : Env) (as : List Act) : AllDue (exec env initial as).log := by
  rw [(loop_as_specified env as).1]
  exact exec_due env as [] (fun p o post n hl => by simp at hl)

theorem added_needs_add (n : Nat) (l : Log) : ∀ l0, added n l0 = false → added n (l0 ++ l) = true → ∃ ok, .op (.add n ok) ∈ l := by
  induction l with
  | nil =>
    intro l0 h0 h
    rw [List.append_nil, h0] at h
    cases h
  | cons x xs ih =>
    intro l0 h0 h
    rw [show l0 ++ x :: xs = (l0 ++ [x]) ++ xs by simp] at h
    by_cases hx : added n (l0 ++ [x]) = true
    · rw [added_snoc] at hx
      have hf : ∀ b : Bool, ¬ (if b then false else false) = true := by intro b; cases b <;> simp
      cases x with
      | op o =>
        cases o with
        | add m ok =>
          simp only at hx
          by_cases hm : m = n
          · subst hm; exact ⟨ok, by simp⟩
          · rw [if_neg hm, h0] at hx; cases hx
        | remove m =>
          simp only [h0] at hx
          split at hx <;> cases hx
        | _ => rw [h0] at hx; cases hx
      | _ => rw [h0] at hx; cases hx
    · simp only [Bool.not_eq_true] at hx
      obtain ⟨ok, hok⟩ := ih (l0 ++ [x]) hx h
      exact ⟨ok, by simp [hok]⟩

/-- C32, the sentence users rely on: after a notifier was removed none of its callbacks is called unless it was added again and a later
`epoll_wait` reported an event of it. -/
theorem removed_never_called (env : Env) (as : List Act) (n : Nat) (pre mid post : Log) (o : Obs)
    (h : (exec env initial as).log = pre ++ .op (.remove n) :: mid ++ o :: post) (ho : callee o = some n) :
    ∃ m1 m2 b e, mid = m1 ++ .wait b :: m2 ∧ (n, e) ∈ b ∧ (∃ ok, .op (.add n ok) ∈ m1) ∧ .op (.remove n) ∉ m2 := by
  obtain ⟨p1, b, p2, before, e, after, h1, h2, h3, h4, h5, h6, _⟩ := callbacks_due env as _ o post n h ho
  rcases List.append_eq_append_iff.mp h1 with ⟨a, h7, h8⟩ | ⟨c, h7, h8⟩
  · -- the wait comes after the removal
    cases a with
    | nil => simp at h8
    | cons y ys =>
      simp only [List.cons_append, List.cons.injEq] at h8
      obtain ⟨rfl, h8⟩ := h8
      refine ⟨ys, p2, b, e, h8, by rw [h3]; simp, ?_, h5⟩
      apply added_needs_add n ys (pre ++ [.op (.remove n)])
      · rw [added_snoc]; simp
      · rw [h7] at h4; simpa using h4
  · -- the removal would come after the wait
    exfalso
    apply h5
    cases c with
    | nil => simp at h8
    | cons y ys =>
      simp only [List.cons_append, List.cons.injEq] at h8
      rw [h8.2]
      simp

/-! ### Examples -/

/-- The read callback of notifier 1 removes notifier 2, whose event was fetched in the same batch. -/
def exampleEnv : Env := fun l => if l.getLast? = some (.read 1) then [.remove 2, .registerWrite 1 true] else []

def exampleActs : List Act :=
  [.call (.add 1 true), .call (.registerRead 1 true), .call (.add 2 true), .call (.registerRead 2 true), .call (.add 3 true),
   .call (.registerRead 3 true),
   .run [.events [(1, ⟨true, true, false⟩), (2, ⟨true, false, false⟩), (3, ⟨true, false, false⟩)],
     .interrupted, .events [(2, ⟨true, false, false⟩), (3, ⟨true, true, false⟩), (0, ⟨true, false, false⟩), (1, ⟨true, true, true⟩)]]]

example : (exec exampleEnv initial exampleActs).log.filterMap callee = [1, 1, 3, 3] := by decide

end Cio.Epoll
