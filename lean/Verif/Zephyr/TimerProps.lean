import Verif.Zephyr.TimerModel
/-
Property theorems for the timers of the Zephyr port (C49).
-/
namespace Cio.Zephyr.Timer

/-! ### Specification -/

/-- How often the handler of arming `t` was called. -/
def calls (t : Nat) (l : List Obs) : Nat := l.countP fun o => match o with
  | .handler u _ => u = t
  | _ => false

/-- Every arming so far was answered: its handler was called. -/
def AllAnswered (l : List Obs) : Prop := ∀ t, .armed t ∈ l → calls t l = 1

/-- Every expiry so far was reported to the handler. -/
def ExpiriesReported (l : List Obs) : Prop := ∀ t, .expired t ∈ l → calls t l = 1

/-- The rules of use under which the property holds: the timer is armed only when the handler of the last arming was called, and not by
a handler that is told of its abortion by `cio_timer_close`; it is closed by code that is not a handler told of an abortion, and only
when every expiry was already reported; the event loop is not cancelled, and there is room in its queue. -/
def Rules (s : St) : Move → Prop
  | .arm _ => AllAnswered s.log ∧ s.stack.head? ≠ some (.user .byClose)
  | .close => s.stack.head? = some (.user .plain) ∧ ExpiriesReported s.log
  | .expire full => full = false
  | .purge => False
  | _ => True

/-- States reached by moves that keep to `rules`. -/
inductive Reach (rules : St → Move → Prop) : St → Prop
  | init : Reach rules initial
  | step {s s' : St} {m : Move} (h : Reach rules s) (hr : rules s m) (hs : step s m = some s') : Reach rules s'

/-- Handlers are told the truth: success only after the time of this very arming has passed, "aborted" only immediately after the user
cancelled or closed the timer. -/
def Truthful (l : List Obs) : Prop := ∀ p t e post, l = p ++ .handler t e :: post →
  (e = SUCCESS ∧ .expired t ∈ p) ∨ (e = OPERATION_ABORTED ∧ (p.getLast? = some (.cancel true) ∨ p.getLast? = some .close))

/-! ### Invariant -/

theorem calls_snoc (t : Nat) (l : List Obs) (o : Obs) : calls t (l ++ [o]) = calls t l + (match o with
    | .handler u _ => if u = t then 1 else 0
    | _ => 0) := by
  unfold calls
  rw [List.countP_append]
  cases o with
  | handler u e => by_cases h : u = t <;> simp [h]
  | _ => simp

theorem Truthful.snoc {l : List Obs} (h : Truthful l) {o : Obs} (ho : ∀ t e, o = .handler t e →
    (e = SUCCESS ∧ .expired t ∈ l) ∨ (e = OPERATION_ABORTED ∧ (l.getLast? = some (.cancel true) ∨ l.getLast? = some .close))) :
    Truthful (l ++ [o]) := by
  intro p t e post hl
  rcases List.append_eq_append_iff.mp hl with ⟨a, h1, h2⟩ | ⟨c, h1, h2⟩
  · cases a with
    | nil =>
      simp only [List.nil_append, List.append_nil, List.cons.injEq] at h1 h2
      subst h1
      exact ho t e h2.1
    | cons y ys => simp at h2
  · cases c with
    | nil =>
      simp only [List.nil_append, List.append_nil, List.cons.injEq] at h1 h2
      subst h1
      exact ho t e h2.1.symm
    | cons y ys =>
      simp only [List.cons_append, List.cons.injEq] at h2
      obtain ⟨rfl, rfl⟩ := h2
      exact h p t e ys h1

/-- The data of the timer fit the history. -/
structure Data (handler kern : Option Nat) (queued next : Nat) (l : List Obs) : Prop where
  arms : ∀ t, .armed t ∈ l ↔ t < next
  old : ∀ t < next, handler ≠ some t → calls t l = 1
  fresh : ∀ t, next ≤ t → calls t l = 0
  cur : ∀ t, handler = some t → t < next ∧ calls t l = 0 ∧ ((kern = some t ∧ queued = 0) ∨ (kern = none ∧ queued = 1 ∧ .expired t ∈ l))
  idle : handler = none → kern = none ∧ queued = 0
  truth : Truthful l

/-- The stack of a program that keeps to the rules; the flag says that `cio_timer_close` is under way. -/
inductive Shape : List Item → Bool → Prop
  | nil : Shape [] false
  | plain : Shape [.user .plain] false
  | told {k : List Item} (h : Shape k false) : Shape (.user .byCancel :: .afterStop :: k) false
  | stopped {k : List Item} (h : Shape k false) : Shape (.afterStop :: k) false
  | closing : Shape [.afterClose, .user .plain] true
  | closeTold : Shape [.user .byClose, .afterStop, .afterClose, .user .plain] true
  | closeStopped : Shape [.afterStop, .afterClose, .user .plain] true

structure Inv (s : St) (clos : Bool) : Prop where
  ub : s.ub = false
  shape : Shape s.stack clos
  data : Data s.handler s.kern s.queued s.next s.log
  closing : clos = true → s.handler = none ∧ s.alive = true ∧ s.removed = true
  dead : s.alive = false → s.handler = none ∧ clos = false ∧ (s.stack = [] ∨ s.stack = [.user .plain])
  open_ : clos = false → s.alive = true → s.removed = false

/-- Something that leaves the timer alone. -/
theorem Data.log {handler kern : Option Nat} {queued next : Nat} {l : List Obs} (h : Data handler kern queued next l) {o : Obs}
    (ha : ∀ t, o ≠ .armed t) (hh : ∀ t e, o ≠ .handler t e) : Data handler kern queued next (l ++ [o]) := by
  have hc : ∀ t, calls t (l ++ [o]) = calls t l := by
    intro t
    rw [calls_snoc]
    cases o with
    | handler u e => exact absurd rfl (hh u e)
    | _ => rfl
  refine ⟨?_, ?_, ?_, ?_, h.idle, h.truth.snoc (fun t e he => absurd he (hh t e))⟩
  · intro t
    rw [List.mem_append, List.mem_singleton, h.arms]
    exact or_iff_left (fun e => ha t e.symm)
  · intro t ht hn; rw [hc]; exact h.old t ht hn
  · intro t ht; rw [hc]; exact h.fresh t ht
  · intro t ht
    obtain ⟨a, b, c⟩ := h.cur t ht
    refine ⟨a, by rw [hc]; exact b, ?_⟩
    rcases c with c | ⟨c1, c2, c3⟩
    · exact .inl c
    · exact .inr ⟨c1, c2, by simp [c3]⟩

/-- The handler is called. -/
theorem Data.called {kern : Option Nat} {queued next : Nat} {l : List Obs} {t : Nat} {e : Err} (h : Data (some t) kern queued next l)
    (ht : (e = SUCCESS ∧ .expired t ∈ l) ∨ (e = OPERATION_ABORTED ∧ (l.getLast? = some (.cancel true) ∨ l.getLast? = some .close))) :
    Data none none 0 next (l ++ [.handler t e]) := by
  have hc : ∀ u, calls u (l ++ [.handler t e]) = calls u l + if t = u then 1 else 0 := fun u => by rw [calls_snoc]
  obtain ⟨a, b, -⟩ := h.cur t rfl
  refine ⟨?_, ?_, ?_, by simp, fun _ => ⟨rfl, rfl⟩, h.truth.snoc ?_⟩
  · intro u; rw [List.mem_append, List.mem_singleton, h.arms]; simp
  · intro u hu _
    rw [hc]
    by_cases htu : t = u
    · rw [if_pos htu, ← htu, b]
    · rw [if_neg htu, h.old u hu (by simpa using htu)]
  · intro u hu
    rw [hc, if_neg (by omega)]
    exact h.fresh u hu
  · intro u e' he
    injection he with h1 h2
    subst h1; subst h2
    exact ht

/-- The timer is armed. -/
theorem Data.armed {kern : Option Nat} {queued next : Nat} {l : List Obs} (h : Data none kern queued next l) :
    Data (some next) (some next) queued (next + 1) (l ++ [.armed next]) := by
  have hc : ∀ t, calls t (l ++ [.armed next]) = calls t l := fun t => by rw [calls_snoc]; rfl
  refine ⟨?_, ?_, ?_, ?_, by simp, h.truth.snoc (by simp)⟩
  · intro t; rw [List.mem_append, List.mem_singleton, h.arms]; simp; omega
  · intro t ht hn
    have : t ≠ next := fun e => hn (by rw [e])
    rw [hc]
    exact h.old t (by omega) (by simp)
  · intro t ht; rw [hc]; exact h.fresh t (by omega)
  · intro t ht
    injection ht with ht
    subst ht
    exact ⟨by omega, by rw [hc]; exact h.fresh _ (by omega), .inl ⟨rfl, (h.idle rfl).2⟩⟩

theorem opt {α : Type} (o : Option α) : o = none ∨ ∃ a, o = some a := by cases o <;> simp

/-- The `k_timer` can be running only for the current handler. -/
theorem Data.kern_some {handler kern : Option Nat} {queued next : Nat} {l : List Obs} (h : Data handler kern queued next l) {t : Nat}
    (hk : kern = some t) : handler = some t ∧ queued = 0 := by
  rcases opt handler with hh | ⟨u, hh⟩
  · have := (h.idle hh).1; rw [hk] at this; cases this
  · rcases (h.cur u hh).2.2 with ⟨h1, h2⟩ | ⟨h1, -, -⟩
    · rw [hk] at h1; injection h1 with h1; subst h1; exact ⟨hh, h2⟩
    · rw [hk] at h1; cases h1

theorem Data.queued_pos {handler kern : Option Nat} {queued next : Nat} {l : List Obs} (h : Data handler kern queued next l)
    (hq : queued ≠ 0) : ∃ t, handler = some t ∧ kern = none ∧ queued = 1 ∧ .expired t ∈ l := by
  rcases opt handler with hh | ⟨u, hh⟩
  · exact absurd (h.idle hh).2 hq
  · rcases (h.cur u hh).2.2 with ⟨-, h2⟩ | ⟨h1, h2, h3⟩
    · exact absurd h2 hq
    · exact ⟨u, hh, h1, h2, h3⟩

/-- `cio_timer_cancel` and the cancellation of `cio_timer_close`. -/
theorem cancel_cases {s : St} {u : User} (h : Data s.handler s.kern s.queued s.next s.log) :
    (cancel s u = s ∧ (s.handler = none ∨ s.queued = 1)) ∨
    ∃ t, s.handler = some t ∧ s.kern = some t ∧ s.queued = 0 ∧
      cancel s u = { s with handler := none, kern := none, log := s.log ++ [.handler t OPERATION_ABORTED], stack := .user u :: .afterStop :: s.stack } := by
  rcases opt s.handler with hh | ⟨t, hh⟩
  · left; refine ⟨?_, .inl hh⟩; unfold cancel; rw [hh]
  · rcases (h.cur t hh).2.2 with ⟨h1, h2⟩ | ⟨h1, h2, -⟩
    · right; refine ⟨t, hh, h1, h2, ?_⟩; unfold cancel stop; simp only [hh, h1]
    · left; refine ⟨?_, .inr h2⟩; unfold cancel stop; simp only [hh, h1]

theorem step_inv {s s' : St} {m : Move} {clos : Bool} (h : Inv s clos) (hr : Rules s m) (hs : step s m = some s') :
    ∃ clos, Inv s' clos := by
  unfold step at hs
  rw [if_neg (by rw [h.ub]; decide)] at hs
  split at hs
  · -- expire
    rename_i full
    have hf : full = false := hr
    subst hf
    unfold expire at hs
    split at hs
    · cases hs
    · rename_i t hk
      have hsome := h.data.kern_some hk
      have ha : s.alive = true := by
        cases hd : s.alive with
        | true => rfl
        | false => have := (h.dead hd).1; rw [hsome.1] at this; cases this
      rw [if_neg (by simp [ha])] at hs
      injection hs with hs
      subst hs
      refine ⟨clos, h.ub, h.shape, ?_, h.closing, fun hd => h.dead hd, h.open_⟩
      have hd := h.data.log (o := .expired t) (by simp) (by simp)
      refine ⟨hd.arms, hd.old, hd.fresh, ?_, ?_, hd.truth⟩
      · intro u hu
        have hu' : s.handler = some u := hu
        rw [hsome.1] at hu'
        injection hu' with hu'
        subst hu'
        obtain ⟨a, b, -⟩ := hd.cur t hsome.1
        refine ⟨a, b, .inr ⟨rfl, by show s.queued + 1 = 1; rw [hsome.2], by simp⟩⟩
      · intro hn
        have hn' : s.handler = none := hn
        rw [hsome.1] at hn'
        cases hn'
  · -- enter
    rename_i hst
    injection hs with hs
    subst hs
    have hsh := h.shape
    rw [hst] at hsh
    have hc : clos = false := by cases hsh; rfl
    subst hc
    exact ⟨false, h.ub, .plain, h.data, h.closing, fun hd => ⟨(h.dead hd).1, rfl, .inr rfl⟩, h.open_⟩
  · -- event
    rename_i hst
    split at hs
    · cases hs
    · rename_i hq
      injection hs with hs
      subst hs
      obtain ⟨t, hh, hk, hq1, hex⟩ := h.data.queued_pos hq
      have ha : s.alive = true := by
        cases hd : s.alive with
        | true => rfl
        | false => have := (h.dead hd).1; rw [hh] at this; cases this
      have hsh := h.shape
      rw [hst] at hsh
      have hc : clos = false := by cases hsh; rfl
      subst hc
      have hre := h.open_ rfl ha
      have e : event s = { s with queued := 0, handler := none, log := s.log ++ [.handler t SUCCESS], stack := .user .plain :: s.stack } := by
        unfold event
        simp only [ha, hre, hh, hq1]
        rfl
      rw [e]
      have hd := h.data
      rw [hh, hk, hq1] at hd
      have hd' := hd.called (e := SUCCESS) (.inl ⟨rfl, hex⟩)
      refine ⟨false, h.ub, by rw [hst]; exact .plain, by show Data none s.kern 0 s.next _; rw [hk]; exact hd', by simp, ?_, h.open_⟩
      intro hd
      have hd' : s.alive = false := hd
      rw [ha] at hd'
      cases hd'
  · -- leave
    rename_i u k hst
    injection hs with hs
    subst hs
    have hsh := h.shape
    rw [hst] at hsh
    generalize hl : Item.user u :: k = l at hsh
    cases hsh with
    | nil => cases hl
    | plain =>
      injection hl with _ hl
      subst hl
      exact ⟨false, h.ub, .nil, h.data, h.closing, fun hd => ⟨(h.dead hd).1, rfl, .inl rfl⟩, h.open_⟩
    | told hk =>
      injection hl with hu hl
      subst hl
      refine ⟨false, h.ub, .stopped hk, h.data, h.closing, ?_, h.open_⟩
      intro hd
      have := (h.dead hd).2.2
      rw [hst, hu] at this
      simp at this
    | stopped => cases hl
    | closing => cases hl
    | closeTold =>
      injection hl with _ hl
      subst hl
      refine ⟨true, h.ub, .closeStopped, h.data, h.closing, ?_, h.open_⟩
      intro hd
      have := (h.closing rfl).2.1
      rw [show s.alive = false from hd] at this
      cases this
    | closeStopped => cases hl
  · -- arm
    rename_i timeout u k hst
    split at hs
    · rename_i ha
      injection hs with hs
      subst hs
      obtain ⟨hans, htop⟩ := hr
      have hh : s.handler = none := by
        rcases opt s.handler with hh | ⟨t, hh⟩
        · exact hh
        · obtain ⟨a, b, -⟩ := h.data.cur t hh
          have := hans t ((h.data.arms t).mpr a)
          omega
      have hc : clos = false := by
        have hsh := h.shape
        rw [hst] at hsh htop
        generalize hl : Item.user u :: k = l at hsh
        cases hsh with
        | closing => cases hl
        | closeStopped => cases hl
        | closeTold => injection hl with hu _; rw [hu] at htop; exact absurd rfl htop
        | _ => rfl
      subst hc
      have hd := h.data
      rw [hh] at hd
      refine ⟨false, h.ub, h.shape, hd.armed, by simp, ?_, h.open_⟩
      intro hx
      have hx' : s.alive = false := hx
      rw [ha] at hx'
      cases hx'
    · cases hs
  · -- cancel
    rename_i u k hst
    split at hs
    · rename_i ha
      injection hs with hs
      subst hs
      have hd := h.data.log (o := .cancel s.handler.isSome) (by simp) (by simp)
      have hndead : ∀ {P : Prop}, s.alive = false → P := by
        intro P hx
        rw [ha] at hx
        cases hx
      rcases cancel_cases (s := { s with log := s.log ++ [.cancel s.handler.isSome] }) (u := .byCancel) hd with ⟨e, -⟩ | ⟨t, hh, hk, hq, e⟩
      · rw [e]
        exact ⟨clos, h.ub, h.shape, hd, h.closing, fun hx => hndead hx, h.open_⟩
      · rw [e]
        have hh' : s.handler = some t := hh
        have hk' : s.kern = some t := hk
        have hq' : s.queued = 0 := hq
        have hc : clos = false := by
          cases hcl : clos with
          | false => rfl
          | true => have := (h.closing hcl).1; rw [hh'] at this; cases this
        subst hc
        rw [hh'] at hd
        have hd' := hd.called (e := OPERATION_ABORTED) (.inr ⟨rfl, .inl (by simp)⟩)
        refine ⟨false, h.ub, .told h.shape, ?_, by simp, fun hx => hndead hx, h.open_⟩
        show Data none none s.queued s.next _
        rw [hq', hh']
        exact hd'
    · cases hs
  · -- close
    rename_i u k hst
    split at hs
    · rename_i ha
      injection hs with hs
      subst hs
      obtain ⟨htop, hrep⟩ := hr
      rw [hst] at htop
      have hu : u = .plain := by simpa using htop
      subst hu
      have hsh := h.shape
      rw [hst] at hsh
      have hk0 : k = [] ∧ clos = false := by
        generalize hl : Item.user User.plain :: k = l at hsh
        cases hsh with
        | plain => injection hl with _ hl; exact ⟨hl, rfl⟩
        | _ => cases hl
      obtain ⟨rfl, rfl⟩ := hk0
      have hndead : ∀ {P : Prop}, s.alive = false → P := by
        intro P hx
        rw [ha] at hx
        cases hx
      have hd := h.data.log (o := .close) (by simp) (by simp)
      unfold close
      rcases cancel_cases (s := { s with log := s.log ++ [.close], removed := true, stack := .afterClose :: s.stack }) (u := .byClose) hd with ⟨e, hor⟩ | ⟨t, hh, hk, hq, e⟩
      · rw [e]
        have hh : s.handler = none := by
          rcases hor with hor | hor
          · exact hor
          · have hq : s.queued = 1 := hor
            obtain ⟨t, hh, -, -, hex⟩ := h.data.queued_pos (by omega)
            have := hrep t hex
            obtain ⟨-, b, -⟩ := h.data.cur t hh
            omega
        refine ⟨true, h.ub, ?_, hd, fun _ => ⟨hh, ha, rfl⟩, fun hx => hndead hx, by simp⟩
        show Shape (.afterClose :: s.stack) true
        rw [hst]
        exact .closing
      · rw [e]
        have hh' : s.handler = some t := hh
        have hq' : s.queued = 0 := hq
        rw [hh'] at hd
        have hd' := hd.called (e := OPERATION_ABORTED) (.inr ⟨rfl, .inr (by simp)⟩)
        refine ⟨true, h.ub, ?_, ?_, fun _ => ⟨rfl, ha, rfl⟩, fun hx => hndead hx, by simp⟩
        · show Shape (.user .byClose :: .afterStop :: .afterClose :: s.stack) true
          rw [hst]
          exact .closeTold
        · show Data none none s.queued s.next _
          rw [hq']
          exact hd'
    · cases hs
  · -- purge
    exact False.elim hr
  · -- afterStop
    rename_i k hst
    have hsh := h.shape
    rw [hst] at hsh
    have ha : s.alive = true := by
      cases hd : s.alive with
      | true => rfl
      | false => have := (h.dead hd).2.2; rw [hst] at this; simp at this
    rw [if_pos ha] at hs
    injection hs with hs
    subst hs
    have hndead : ∀ {P : Prop}, s.alive = false → P := by
      intro P hx
      rw [ha] at hx
      cases hx
    generalize hl : Item.afterStop :: k = l at hsh
    cases hsh with
    | stopped hk =>
      injection hl with _ hl
      subst hl
      exact ⟨false, h.ub, hk, h.data, h.closing, fun hx => hndead hx, h.open_⟩
    | closeStopped =>
      injection hl with _ hl
      subst hl
      exact ⟨true, h.ub, .closing, h.data, h.closing, fun hx => hndead hx, h.open_⟩
    | _ => cases hl
  · -- afterClose
    rename_i k hst
    have hsh := h.shape
    rw [hst] at hsh
    generalize hl : Item.afterClose :: k = l at hsh
    cases hsh with
    | closing =>
      injection hl with _ hl
      subst hl
      obtain ⟨hh, ha, hre⟩ := h.closing rfl
      rw [if_pos ha] at hs
      injection hs with hs
      subst hs
      exact ⟨false, h.ub, .plain, h.data.log (by simp) (by simp), by simp, fun _ => ⟨hh, rfl, .inr rfl⟩, by simp⟩
    | _ => cases hl
  · cases hs

theorem reach_inv {s : St} (h : Reach Rules s) : ∃ clos, Inv s clos := by
  induction h with
  | init =>
    refine ⟨false, rfl, .nil, ⟨by simp [initial], by simp [initial], fun _ _ => rfl, by simp [initial], fun _ => ⟨rfl, rfl⟩, ?_⟩, by simp, by simp [initial],
      fun _ _ => rfl⟩
    intro p t e post hl
    simp [initial] at hl
  | step _ hr hs ih =>
    obtain ⟨c, h⟩ := ih
    exact step_inv h hr hs

/-! ### Theorems -/

/-- C49 (within the rules of use): the handler of an arming is called at most once, it is told the truth, and the library never touches a
timer that was closed or calls a handler that is not there. -/
theorem handler_at_most_once_partial {s : St} (h : Reach Rules s) :
    (∀ t, calls t s.log ≤ 1) ∧ Truthful s.log ∧ s.ub = false := by
  obtain ⟨c, h⟩ := reach_inv h
  refine ⟨fun t => ?_, h.data.truth, h.ub⟩
  by_cases ht : t < s.next
  · by_cases hh : s.handler = some t
    · have := (h.data.cur t hh).2.1; omega
    · have := h.data.old t ht hh; omega
  · have := h.data.fresh t (by omega); omega

/-- C49 (within the rules of use): no arming is forgotten.  The handler was called, or the timer runs for it and will call it when the time
has passed and the event loop goes on, or it has expired and the event loop will call it. -/
theorem arming_not_forgotten_partial {s : St} (h : Reach Rules s) (hidle : s.stack = []) {t : Nat} (ht : .armed t ∈ s.log) :
    calls t s.log = 1 ∨ (calls t s.log = 0 ∧
      ((∃ s', run s [.expire false, .event] = some s' ∧ s'.log = s.log ++ [.expired t, .handler t SUCCESS]) ∨
       (∃ s', run s [.event] = some s' ∧ s'.log = s.log ++ [.handler t SUCCESS]))) := by
  obtain ⟨c, h⟩ := reach_inv h
  by_cases hh : s.handler = some t
  · right
    have ha : s.alive = true := by
      cases hd : s.alive with
      | true => rfl
      | false => have := (h.dead hd).1; rw [hh] at this; cases this
    have hsh := h.shape
    rw [hidle] at hsh
    have hc : c = false := by cases hsh; rfl
    subst hc
    have hre := h.open_ rfl ha
    obtain ⟨-, b, d⟩ := h.data.cur t hh
    refine ⟨b, ?_⟩
    rcases d with ⟨d1, d2⟩ | ⟨d1, d2, -⟩
    · left
      exact ⟨{ s with kern := none, queued := 0, handler := none, log := s.log ++ [.expired t, .handler t SUCCESS], stack := [.user .plain] },
        by simp [run, step, expire, event, h.ub, ha, hh, hre, hidle, d1, d2], rfl⟩
    · right
      exact ⟨{ s with queued := 0, handler := none, log := s.log ++ [.handler t SUCCESS], stack := [.user .plain] },
        by simp [run, step, event, h.ub, ha, hh, hre, hidle, d2], rfl⟩
  · exact .inl (h.data.old t ((h.data.arms t).mp ht) hh)

/-- C49 (within the rules of use): when the close hook was called, the handlers of all armings have been called, and no event of the timer
is left in the queue of the event loop. -/
theorem closed_all_answered_partial {s : St} (h : Reach Rules s) (hc : s.alive = false) : AllAnswered s.log ∧ s.queued = 0 ∧ s.kern = none := by
  obtain ⟨c, h⟩ := reach_inv h
  have hn := (h.dead hc).1
  refine ⟨fun t ht => h.data.old t ((h.data.arms t).mp ht) (by rw [hn]; simp), (h.data.idle hn).2, (h.data.idle hn).1⟩

/-- C49 (within the rules of use): a cancellation before the time has passed tells the handler at once. -/
theorem cancel_aborts_partial {s s' : St} {t : Nat} (h : Reach Rules s) (ht : .armed t ∈ s.log) (h0 : calls t s.log = 0) (hne : .expired t ∉ s.log)
    (hs : step s .cancel = some s') : s'.log = s.log ++ [.cancel true, .handler t OPERATION_ABORTED] := by
  obtain ⟨c, h⟩ := reach_inv h
  have hh : s.handler = some t := by
    by_cases hh : s.handler = some t
    · exact hh
    · have := h.data.old t ((h.data.arms t).mp ht) hh; omega
  unfold step at hs
  rw [if_neg (by rw [h.ub]; decide)] at hs
  obtain ⟨-, -, ⟨hk, -⟩ | ⟨-, -, hx⟩⟩ := h.data.cur t hh
  · rcases hst : s.stack with _ | ⟨i, k⟩
    · rw [hst] at hs; cases hs
    · rw [hst] at hs
      cases i with
      | user u =>
        dsimp only at hs
        split at hs <;> cases hs
        simp [cancel, stop, hh, hk]
      | _ => cases hs
  · exact absurd hx hne

/-! ### What does not hold -/

/-- C49 fails when the timer is cancelled after the time has passed and before the event loop has seen it: the cancellation succeeds, but the
handler is not told of an abortion; later it is told of success. -/
theorem cancel_not_aborted : ∃ s, run initial [.enter, .arm 5000000#64, .expire false, .cancel, .leave, .event] = some s ∧
    s.log = [.armed 0, .expired 0, .cancel true, .handler 0 SUCCESS] := ⟨_, rfl, rfl⟩

/-- C49 fails when the timer is closed at that time: the handler is never called (nothing can happen any more but that the event loop looks
at the closed timer). -/
theorem close_forgets_handler : ∃ s, run initial [.enter, .arm 5000000#64, .expire false, .close, .continue, .leave] = some s ∧
    s.log = [.armed 0, .expired 0, .close, .hook] ∧ ∃ s', run s [.event] = some s' ∧ s'.ub = true ∧ s'.log = s.log := ⟨_, rfl, rfl, _, rfl, rfl, rfl⟩

/-- C49 fails when the timer is armed again: the handler of the first arming is forgotten. -/
theorem rearm_forgets_handler : ∃ s, run initial [.enter, .arm 5000000#64, .arm 5000000#64, .expire false, .leave, .event] = some s ∧
    s.log = [.armed 0, .armed 1, .expired 1, .handler 1 SUCCESS] ∧ s.handler = none ∧ s.kern = none ∧ s.queued = 0 := ⟨_, rfl, rfl, rfl, rfl, rfl⟩

/-- C49 fails when the timer is armed again while an expiry is in the queue: the new handler is told of success before its time has passed,
and when the time has passed a NULL pointer is called. -/
theorem rearm_calls_null : ∃ s, run initial [.enter, .arm 5000000#64, .expire false, .arm 9000000#64, .leave, .event, .leave] = some s ∧
    s.log = [.armed 0, .expired 0, .armed 1, .handler 1 SUCCESS] ∧ ∃ s', run s [.expire false, .event] = some s' ∧ s'.ub = true := ⟨_, rfl, rfl, _, rfl, rfl⟩

/-- C49 fails when the event loop is cancelled: the expiry is lost, and the handler is not called when the loop is run again. -/
theorem purge_forgets_handler : ∃ s, run initial [.enter, .arm 5000000#64, .expire false, .purge, .leave] = some s ∧
    calls 0 s.log = 0 ∧ s.kern = none ∧ s.queued = 0 := ⟨_, rfl, rfl, rfl, rfl⟩

/-- A handler told of an abortion by `cio_timer_cancel` must not close the timer. -/
theorem close_in_aborted_handler : ∃ s, run initial [.enter, .arm 5000000#64, .cancel, .close, .continue, .leave, .continue] = some s ∧ s.ub = true :=
  ⟨_, rfl, rfl⟩

/-! ### Conversion of the timeout -/

/-- C49: for timeouts below 2^31 milliseconds the duration given to the kernel is the timeout in milliseconds, rounded down. -/
theorem timeout_converted_partial (timeout : BitVec 64) (h : timeout.toNat < 2 ^ 31 * 1000000) :
    0 ≤ (msec timeout).toInt ∧ (msec timeout).toInt * 1000000 ≤ timeout.toNat ∧ (timeout.toNat : Int) < (msec timeout).toInt * 1000000 + 1000000 := by
  have e : (msec timeout).toNat = timeout.toNat / 1000000 := by
    show ((timeout / 1000000#64).setWidth 32).toNat = _
    rw [BitVec.toNat_setWidth, BitVec.toNat_udiv, show (1000000#64).toNat = 1000000 from rfl]
    omega
  rw [BitVec.toInt_eq_toNat_of_lt (by rw [e]; omega), e]
  omega

/-- Timers may expire early: a timeout of just below a millisecond is no time at all. -/
theorem short_timeout_is_zero : msec 999999#64 = 0#32 := by decide

/-- Timeouts of 2^31 milliseconds (about 25 days) are negative. -/
theorem long_timeout_is_negative : (msec 2147483648000000#64).toInt < 0 := by decide

/-! ### Non-vacuity -/

instance (l : List Obs) : Decidable (AllAnswered l) :=
  decidable_of_iff ((l.all fun o => match o with | .armed t => calls t l == 1 | _ => true) = true) (by
    unfold AllAnswered
    rw [List.all_eq_true]
    constructor
    · intro h t hm
      simpa using h _ hm
    · intro h o ho
      cases o with
      | armed t => simpa using h t ho
      | _ => rfl)

instance (l : List Obs) : Decidable (ExpiriesReported l) :=
  decidable_of_iff ((l.all fun o => match o with | .expired t => calls t l == 1 | _ => true) = true) (by
    unfold ExpiriesReported
    rw [List.all_eq_true]
    constructor
    · intro h t hm
      simpa using h _ hm
    · intro h o ho
      cases o with
      | expired t => simpa using h t ho
      | _ => rfl)

instance (s : St) (m : Move) : Decidable (Rules s m) := by cases m <;> unfold Rules <;> infer_instance

/-- Run within the rules. -/
def runRules : St → List Move → Option St
  | s, [] => some s
  | s, m :: ms => if Rules s m then (step s m).bind fun s => runRules s ms else none

theorem reach_runRules (ms : List Move) : ∀ {s s' : St}, Reach Rules s → runRules s ms = some s' → Reach Rules s' := by
  induction ms with
  | nil => intro s s' h hr; cases hr; exact h
  | cons x ms ih =>
    intro s s' h hr
    unfold runRules at hr
    split at hr
    · rename_i hb
      rw [Option.bind_eq_some_iff] at hr
      obtain ⟨t, h1, h2⟩ := hr
      exact ih (.step h hb h1) h2
    · cases hr

/-- Arm, expire, be told; arm again in the handler; cancel, arm in the handler told of the abortion; cancel after the expiry; arm, close. -/
def exampleMoves : List Move :=
  [.enter, .arm 5000000#64, .leave, .expire false, .event, .arm 7000000#64, .leave, .enter, .cancel, .arm 9000000#64, .leave, .continue, .expire false,
   .cancel, .leave, .event, .arm 1000000#64, .close, .leave, .continue, .continue, .leave]

example : ∃ s, Reach Rules s ∧ s.alive = false ∧ s.stack = [] ∧ s.log =
    [.armed 0, .expired 0, .handler 0 SUCCESS, .armed 1, .cancel true, .handler 1 OPERATION_ABORTED, .armed 2, .expired 2, .cancel true,
     .handler 2 SUCCESS, .armed 3, .close, .handler 3 OPERATION_ABORTED, .hook] := by
  refine ⟨(runRules initial exampleMoves).getD initial, reach_runRules exampleMoves .init ?_, ?_, ?_, ?_⟩ <;> decide

end Cio.Zephyr.Timer
