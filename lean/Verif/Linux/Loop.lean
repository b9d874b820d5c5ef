import Verif.Epoll.Props
/-
What the event loop of the Linux port (model `Cio.Epoll`) guarantees to the objects that are registered with it: a callback is only called while the notifier is in the
loop and has asked for it; and all calls recorded were allowed.
-/
namespace Cio.Epoll

/-- Every call in a log was allowed when it was made. -/
def AllAllowed (l : Log) : Prop := ∀ p o post, l = p ++ .op o :: post → allowed p o = true

theorem AllAllowed.snoc {l : Log} (h : AllAllowed l) {x : Obs} (hx : ∀ o, x = .op o → allowed l o = true) : AllAllowed (l ++ [x]) := by
  intro p o post hl
  rcases List.append_eq_append_iff.mp hl with ⟨a, h1, h2⟩ | ⟨c, h1, h2⟩
  · cases a with
    | nil =>
      simp only [List.nil_append, List.append_nil, List.cons.injEq] at h1 h2
      obtain ⟨h2, _⟩ := h2
      subst h1
      exact hx o h2
    | cons y ys => simp at h2
  · cases c with
    | nil =>
      simp only [List.nil_append, List.append_nil] at h1 h2
      simp only [List.cons.injEq] at h2
      obtain ⟨h2, _⟩ := h2
      subst h1
      exact hx o h2.symm
    | cons y ys =>
      simp only [List.cons_append, List.cons.injEq] at h2
      obtain ⟨rfl, rfl⟩ := h2
      exact h p o ys h1

theorem ops_allowed (ops : List Op) : ∀ l, AllAllowed l → AllAllowed (ops.foldl specOp l) := by
  induction ops with
  | nil => exact fun _ h => h
  | cons o os ih =>
    intro l h
    rw [List.foldl_cons]
    apply ih
    unfold specOp
    by_cases ha : allowed l o = true
    · rw [if_pos ha]
      exact h.snoc (fun o' ho => by injection ho with ho; rw [← ho]; exact ha)
    · rw [if_neg ha]; exact h

theorem callback_allowed (env : Env) (l : Log) (o : Obs) (ho : ∀ p, o ≠ .op p) (h : AllAllowed l) : AllAllowed (specCallback env l o) :=
  ops_allowed _ _ (h.snoc (fun p hp => absurd hp (ho p)))

theorem event_allowed (env : Env) (start n : Nat) (e : Ev) (l : Log) (h : AllAllowed l) : AllAllowed (specEvent env start n e l) := by
  unfold specEvent
  have h1 : AllAllowed (if e.input && wantsRead n l then specCallback env l (.read n) else l) := by
    split
    · exact callback_allowed env l _ (fun p hp => by cases hp) h
    · exact h
  generalize (if e.input && wantsRead n l then specCallback env l (.read n) else l) = l1 at h1 ⊢
  dsimp only
  split
  · exact callback_allowed env l1 _ (fun p hp => by cases hp) h1
  · exact h1

theorem batch_allowed (env : Env) (start : Nat) (b : List (Nat × Ev)) : ∀ l, AllAllowed l → AllAllowed (specBatch env start b l).1 := by
  induction b with
  | nil => exact fun _ h => h
  | cons x b ih =>
    intro l h
    obtain ⟨n, e⟩ := x
    unfold specBatch
    split
    · exact ih l h
    · split
      · exact h
      · exact ih _ (event_allowed env start n e l h)

theorem run_allowed (env : Env) (ws : List Wait) : ∀ l, AllAllowed l → AllAllowed (specRun env l ws).1 := by
  induction ws with
  | nil => exact fun l h => h
  | cons w ws ih =>
    intro l h
    cases w with
    | interrupted => exact ih l h
    | failed => exact h
    | events p =>
      simp only [specRun]
      have h1 := batch_allowed env (l.length + 1) (specWait l p) (l ++ [.wait (specWait l p)]) (h.snoc (fun o ho => by cases ho))
      generalize specBatch env (l.length + 1) (specWait l p) (l ++ [.wait (specWait l p)]) = r at h1 ⊢
      obtain ⟨l', b⟩ := r
      cases b with
      | true => exact h1
      | false => exact ih l' h1

theorem exec_allowed (env : Env) (as : List Act) : ∀ l, AllAllowed l → AllAllowed (specExec env l as) := by
  induction as with
  | nil => exact fun l h => h
  | cons a as ih =>
    intro l h
    cases a with
    | call o =>
      simp only [specExec]
      exact ih _ (ops_allowed [o] l h)
    | run ws =>
      simp only [specExec]
      have h1 := run_allowed env ws l h
      generalize specRun env l ws = r at h1 ⊢
      obtain ⟨l', res⟩ := r
      cases res with
      | running => exact h1
      | ok | error => exact ih l' h1

/-- All calls that were executed were allowed. -/
theorem calls_allowed (env : Env) (as : List Act) : AllAllowed (exec env initial as).log := by
  rw [(loop_as_specified env as).1]
  exact exec_allowed env as [] (fun p o post hl => by simp at hl)

theorem added_stays (n : Nat) (q : Log) : ∀ p, AllAllowed (p ++ q) → added n p = true → .op (.remove n) ∉ q → added n (p ++ q) = true := by
  induction q with
  | nil => intro p _ h _; rw [List.append_nil]; exact h
  | cons x q ih =>
    intro p ha h hr
    have hq : p ++ x :: q = (p ++ [x]) ++ q := by simp
    rw [hq] at ha ⊢
    refine ih (p ++ [x]) ha ?_ (fun hm => hr (List.mem_cons_of_mem _ hm))
    rw [added_snoc]
    have hx : x ≠ .op (.remove n) := fun he => hr (by rw [he]; exact List.mem_cons_self)
    cases x with
    | op o =>
      cases o with
      | add m ok =>
        dsimp only
        by_cases hm : m = n
        · subst hm
          have := ha p (.add m ok) q (by simp)
          simp [allowed, h] at this
        · rw [if_neg hm]; exact h
      | remove m =>
        dsimp only
        by_cases hm : m = n
        · subst hm; exact absurd rfl hx
        · rw [if_neg hm]; exact h
      | _ => exact h
    | _ => exact h

/-- Whenever the loop calls the read callback of a notifier, that notifier is in the loop and has asked for read events. -/
theorem read_registered (env : Env) (as : List Act) (n : Nat) (p post : Log) (h : (exec env initial as).log = p ++ .read n :: post) :
    added n p = true ∧ wantsRead n p = true := by
  obtain ⟨p1, b, p2, before, e, after, h1, -, -, h4, h5, -, -, h8⟩ := callbacks_due env as p _ post n h rfl
  have ha := calls_allowed env as
  rw [h] at ha
  have ha' : AllAllowed p := fun q o r hq => ha q o (r ++ .read n :: post) (by rw [hq]; simp)
  refine ⟨?_, ?_⟩
  · rw [h1] at ha' ⊢
    exact added_stays n _ p1 ha' h4 (fun hm => (List.mem_cons.mp hm).elim (fun hm => by cases hm) h5)
  · rcases h8 with h8 | h8
    · exact h8.2.2
    · exact absurd h8.1 (by simp)

/-- Whenever the loop calls the write callback of a notifier, that notifier is in the loop and has asked for it. -/
theorem write_registered (env : Env) (as : List Act) (n : Nat) (err : Bool) (p post : Log) (h : (exec env initial as).log = p ++ .write n err :: post) :
    added n p = true ∧ wantsWrite n p = true := by
  obtain ⟨p1, b, p2, before, e, after, h1, -, -, h4, h5, -, -, h8⟩ := callbacks_due env as p _ post n h rfl
  have ha := calls_allowed env as
  rw [h] at ha
  have ha' : AllAllowed p := fun q o r hq => ha q o (r ++ .write n err :: post) (by rw [hq]; simp)
  refine ⟨?_, ?_⟩
  · rw [h1] at ha' ⊢
    exact added_stays n _ p1 ha' h4 (fun hm => (List.mem_cons.mp hm).elim (fun hm => by cases hm) h5)
  · rcases h8 with h8 | h8
    · exact absurd h8.1 (by simp)
    · exact h8.2.2

end Cio.Epoll
