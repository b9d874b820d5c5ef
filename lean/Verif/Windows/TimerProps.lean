import Verif.Windows.TimerModel
/-
Property theorems for the timers of the Windows port (C54).
-/
namespace Cio.Windows.Timer

/-! ### Specification -/

/-- How often the handler of arming `t` was called. -/
def calls (t : Nat) (l : List Obs) : Nat := l.countP fun o => match o with
  | .handler u _ => u = t
  | _ => false

/-- Every successful arming so far was answered: its handler was called. -/
def AllAnswered (l : List Obs) : Prop := ∀ t, .armed t ∈ l → calls t l = 1

/-- Every expiry so far was reported to the handler. -/
def ExpiriesReported (l : List Obs) : Prop := ∀ t, .expired t ∈ l → calls t l = 1

/-- The timer was armed at least once (with success or not). -/
def Used (l : List Obs) : Prop := ∃ t, .armed t ∈ l ∨ .refused t ∈ l

/-- The rules of use under which the property holds: the timer is armed only when the handler of the last arming was called, and not by
a handler that is told of its abortion; it is neither cancelled nor closed before it was armed for the first time; it is closed by code
that is not a handler told of an abortion, and only when every expiry was already reported. -/
def Rules (s : St) : Move → Prop
  | .arm _ _ => AllAnswered s.log ∧ s.stack.head? = some (.user .plain)
  | .cancel => Used s.log
  | .close => Used s.log ∧ s.stack.head? = some (.user .plain) ∧ ExpiriesReported s.log
  | _ => True

/-- States reached by moves that keep to `rules`. -/
inductive Reach (rules : St → Move → Prop) : St → Prop
  | init : Reach rules initial
  | step {s s' : St} {m : Move} (h : Reach rules s) (hr : rules s m) (hs : step s m = some s') : Reach rules s'

/-- What may be observed after `p`: success only after the time of this very arming has passed, "aborted" only immediately after the user
cancelled or closed the timer, and the handler of an arming that was refused not at all. -/
def Fits (p : List Obs) : Obs → Prop
  | .handler t e => .armed t ∈ p ∧
      ((e = SUCCESS ∧ .expired t ∈ p) ∨ (e = OPERATION_ABORTED ∧ (p.getLast? = some (.cancel true) ∨ p.getLast? = some .close)))
  | _ => True

/-- Handlers are told the truth. -/
def Truthful (l : List Obs) : Prop := ∀ p o post, l = p ++ o :: post → Fits p o

/-! ### Invariant -/

theorem calls_snoc (t : Nat) (l : List Obs) (o : Obs) : calls t (l ++ [o]) = calls t l + (match o with
    | .handler u _ => if u = t then 1 else 0
    | _ => 0) := by
  unfold calls
  rw [List.countP_append, List.countP_cons, List.countP_nil]
  cases o <;> simp

theorem snoc_split {α : Type} {l p post : List α} {o x : α} (h : l ++ [o] = p ++ x :: post) : (l = p ∧ o = x) ∨ ∃ post', l = p ++ x :: post' := by
  rcases List.append_eq_append_iff.mp h with ⟨c, h1, h2⟩ | ⟨c, h1, h2⟩
  · cases c with
    | nil =>
      simp only [List.nil_append, List.append_nil, List.cons.injEq] at h1 h2
      exact .inl ⟨h1.symm, h2.1⟩
    | cons y ys => simp at h2
  · cases c with
    | nil =>
      simp only [List.nil_append, List.append_nil, List.cons.injEq] at h1 h2
      exact .inl ⟨h1, h2.1.symm⟩
    | cons y ys =>
      simp only [List.cons_append, List.cons.injEq] at h2
      obtain ⟨rfl, rfl⟩ := h2
      exact .inr ⟨ys, h1⟩

theorem Truthful.snoc {l : List Obs} (h : Truthful l) {o : Obs} (ho : Fits l o) : Truthful (l ++ [o]) := by
  intro p x post hl
  rcases snoc_split hl with ⟨rfl, rfl⟩ | ⟨q, hq⟩
  · exact ho
  · exact h p x q hq

/-- The history; `cur` is the arming that is not answered yet. -/
structure Hist (next : Nat) (l : List Obs) (cur : Option Nat) : Prop where
  lt : ∀ t, .armed t ∈ l → t < next
  not : ∀ t, .armed t ∉ l → calls t l = 0
  old : ∀ t, .armed t ∈ l → cur ≠ some t → calls t l = 1
  cur : ∀ t, cur = some t → .armed t ∈ l ∧ calls t l = 0
  truth : Truthful l

theorem Hist.log {next : Nat} {l : List Obs} {cur : Option Nat} (h : Hist next l cur) {o : Obs} (h1 : ∀ t, o ≠ .armed t)
    (h2 : ∀ t e, o ≠ .handler t e) : Hist next (l ++ [o]) cur := by
  have hm : ∀ t, .armed t ∈ l ++ [o] ↔ .armed t ∈ l := by
    intro t
    simp only [List.mem_append, List.mem_singleton]
    exact ⟨fun hx => hx.resolve_right (fun hx => h1 t hx.symm), .inl⟩
  have hc : ∀ t, calls t (l ++ [o]) = calls t l := by
    intro t; rw [calls_snoc]; cases o <;> simp_all
  refine ⟨fun t ht => h.lt t ((hm t).mp ht), fun t ht => ?_, fun t ht hn => ?_, fun t ht => ?_, h.truth.snoc ?_⟩
  · rw [hc]; exact h.not t (fun hx => ht ((hm t).mpr hx))
  · rw [hc]; exact h.old t ((hm t).mp ht) hn
  · rw [hc]; exact ⟨(hm t).mpr (h.cur t ht).1, (h.cur t ht).2⟩
  · cases o <;> first | trivial | exact absurd rfl (h2 _ _)

theorem Hist.grow {next : Nat} {l : List Obs} {cur : Option Nat} (h : Hist next l cur) : Hist (next + 1) l cur :=
  ⟨fun t ht => Nat.lt_succ_of_lt (h.lt t ht), h.not, h.old, h.cur, h.truth⟩

theorem Hist.arm {next : Nat} {l : List Obs} (h : Hist next l none) : Hist (next + 1) (l ++ [.armed next]) (some next) := by
  have hn : .armed next ∉ l := fun hx => absurd (h.lt _ hx) (by omega)
  have hc : ∀ t, calls t (l ++ [.armed next]) = calls t l := by intro t; rw [calls_snoc]; rfl
  refine ⟨fun t ht => ?_, fun t ht => ?_, fun t ht hne => ?_, fun t ht => ?_, h.truth.snoc trivial⟩
  · simp only [List.mem_append, List.mem_singleton, Obs.armed.injEq] at ht
    rcases ht with ht | rfl
    · have := h.lt t ht; omega
    · omega
  · rw [hc]
    exact h.not t (fun hx => ht (by simp [hx]))
  · rw [hc]
    simp only [List.mem_append, List.mem_singleton, Obs.armed.injEq] at ht
    rcases ht with ht | rfl
    · exact h.old t ht (by simp)
    · exact absurd rfl hne
  · cases ht
    rw [hc]
    exact ⟨by simp, h.not _ hn⟩

theorem Hist.called {next t : Nat} {l : List Obs} {e : Err} (h : Hist next l (some t)) (hf : Fits l (.handler t e)) :
    Hist next (l ++ [.handler t e]) none := by
  have hm : ∀ u, .armed u ∈ l ++ [.handler t e] ↔ .armed u ∈ l := by intro u; simp
  refine ⟨fun u hu => h.lt u ((hm u).mp hu), fun u hu => ?_, fun u hu _ => ?_, (by simp), h.truth.snoc hf⟩
  · rw [calls_snoc]
    have hu' : .armed u ∉ l := fun hx => hu ((hm u).mpr hx)
    have : t ≠ u := by rintro rfl; exact hu' (h.cur t rfl).1
    simp [h.not u hu', this]
  · rw [calls_snoc]
    by_cases htu : t = u
    · subst htu; simp [(h.cur t rfl).2]
    · simp only [if_neg htu]
      exact h.old u ((hm u).mp hu) (by simpa using htu)

/-- Where the arming is. -/
inductive Phase (s : St) : Option Nat → Prop
  | idle (h : s.hEvent = none ∧ s.live = none ∧ s.firing = none ∧ s.queued = 0) : Phase s none
  | running (t : Nat) (h : s.handler = .set t ∧ s.hEvent = some t ∧ s.live = some t ∧ s.firing = none ∧ s.queued = 0 ∧ .expired t ∉ s.log) : Phase s (some t)
  | firing (t : Nat) (h : s.handler = .set t ∧ s.hEvent = some t ∧ s.live = none ∧ s.firing = some t ∧ s.queued = 0 ∧ .expired t ∈ s.log) : Phase s (some t)
  | posted (t : Nat) (h : s.handler = .set t ∧ s.hEvent = none ∧ s.live = none ∧ s.firing = none ∧ s.queued = 1 ∧ .expired t ∈ s.log) : Phase s (some t)

/-- The stack of a program that keeps to the rules; the first flag says that `cio_timer_close` is under way, the second that a handler was
told of an abortion and `handler` is not reset yet. -/
inductive Shape : List Item → Bool → Bool → Prop
  | nil : Shape [] false false
  | plain : Shape [.user .plain] false false
  | told : Shape [.user .byCancel, .afterCancel, .user .plain] false true
  | stopped : Shape [.afterCancel, .user .plain] false true
  | closing : Shape [.afterClose, .user .plain] true false
  | closeTold : Shape [.user .byClose, .afterCancel, .afterClose, .user .plain] true true
  | closeStopped : Shape [.afterCancel, .afterClose, .user .plain] true true

structure Inv (s : St) (cur : Option Nat) (clos told : Bool) : Prop where
  ub : s.ub = false
  shape : Shape s.stack clos told
  hist : Hist s.next s.log cur
  phase : Phase s cur
  junk : s.handler = .junk → ¬ Used s.log
  quiet : clos = true ∨ told = true → cur = none ∧ s.alive = true ∧ Used s.log
  dead : s.alive = false → cur = none ∧ clos = false ∧ told = false
  expired : ∀ t, .expired t ∈ s.log → .armed t ∈ s.log

theorem Used.snoc {l : List Obs} (h : Used l) (o : Obs) : Used (l ++ [o]) := by
  obtain ⟨t, h | h⟩ := h
  · exact ⟨t, .inl (by simp [h])⟩
  · exact ⟨t, .inr (by simp [h])⟩

theorem Used.back {l : List Obs} {o : Obs} (h : Used (l ++ [o])) (h1 : ∀ t, o ≠ .armed t) (h2 : ∀ t, o ≠ .refused t) : Used l := by
  obtain ⟨t, h | h⟩ := h <;> simp only [List.mem_append, List.mem_singleton] at h <;> rcases h with h | h
  · exact ⟨t, .inl h⟩
  · exact absurd h.symm (h1 t)
  · exact ⟨t, .inr h⟩
  · exact absurd h.symm (h2 t)

/-- Nothing is under way when everything is answered. -/
theorem Inv.idle_of {s : St} {cur : Option Nat} {c t : Bool} (h : Inv s cur c t) (ha : AllAnswered s.log) : cur = none := by
  cases cur with
  | none => rfl
  | some u =>
    have := h.hist.cur u rfl
    rw [ha u this.1] at this
    exact absurd this.2 (by simp)

theorem expired_snoc {l : List Obs} (h : ∀ t, .expired t ∈ l → .armed t ∈ l) {o : Obs} (ho : ∀ t, o = .expired t → .armed t ∈ l) :
    ∀ t, .expired t ∈ l ++ [o] → .armed t ∈ l ++ [o] := by
  intro t ht
  simp only [List.mem_append, List.mem_singleton] at ht ⊢
  rcases ht with ht | ht
  · exact .inl (h t ht)
  · exact .inl (ho t ht.symm)

theorem step_inv {s s' : St} {m : Move} {cur : Option Nat} {c t : Bool} (h : Inv s cur c t) (hr : Rules s m) (hs : step s m = some s') :
    ∃ cur c t, Inv s' cur c t := by
  unfold step at hs
  rw [if_neg (by rw [h.ub]; decide)] at hs
  cases m with
  | fire =>
    dsimp only at hs
    split at hs <;> cases hs
    rename_i u hl
    have hp := h.phase
    cases hp with
    | idle g => rw [g.2.1] at hl; cases hl
    | firing v g => rw [g.2.2.1] at hl; cases hl
    | posted v g => rw [g.2.2.1] at hl; cases hl
    | running v g =>
      obtain ⟨g1, g2, g3, g4, g5, g6⟩ := g
      rw [g3] at hl; injection hl with hl; subst hl
      refine ⟨some v, c, t, h.ub, h.shape, h.hist.log (by simp) (by simp), .firing v ⟨g1, g2, rfl, rfl, g5, by simp⟩, ?_, ?_, h.dead, ?_⟩
      · intro hj; rw [show s.handler = .junk from hj] at g1; cases g1
      · intro hq; exact absurd (h.quiet hq).1 (by simp)
      · exact expired_snoc h.expired (by intro t ht; cases ht; exact (h.hist.cur v rfl).1)
  | finish =>
    dsimp only [finish] at hs
    have hp := h.phase
    cases hp with
    | idle g => rw [g.2.2.1] at hs; cases hs
    | running v g => rw [g.2.2.2.1] at hs; cases hs
    | posted v g => rw [g.2.2.2.1] at hs; cases hs
    | firing v g =>
      obtain ⟨g1, g2, g3, g4, g5, g6⟩ := g
      rw [g4] at hs
      have ha : s.alive = true := by
        cases hd : s.alive with
        | true => rfl
        | false => exact absurd (h.dead hd).1 (by simp)
      dsimp only at hs
      rw [if_pos ha] at hs
      cases hs
      refine ⟨some v, c, t, h.ub, h.shape, h.hist, .posted v ⟨g1, rfl, g3, rfl, by show s.queued + 1 = 1; omega, g6⟩, h.junk, h.quiet, h.dead, h.expired⟩
  | enter =>
    have hsh := h.shape
    split at hs <;> first | contradiction | (cases hs)
    rename_i hst
    rw [hst] at hsh
    generalize hcc : c = c' at hsh
    generalize htt : t = t' at hsh
    cases hsh
    refine ⟨cur, false, false, h.ub, .plain, h.hist, ?_, h.junk, by simp, fun hd => ⟨(h.dead hd).1, rfl, rfl⟩, h.expired⟩
    have hp := h.phase
    cases hp with
    | idle g => exact .idle g
    | running v g => exact .running v g
    | firing v g => exact .firing v g
    | posted v g => exact .posted v g
  | event =>
    have hsh := h.shape
    split at hs <;> first | contradiction | skip
    rename_i hst
    rw [hst] at hsh
    generalize hcc : c = c' at hsh
    generalize htt : t = t' at hsh
    cases hsh
    split at hs <;> cases hs
    rename_i hq
    have hp := h.phase
    cases hp with
    | idle g => exact absurd g.2.2.2 hq
    | running v g => exact absurd g.2.2.2.2.1 hq
    | firing v g => exact absurd g.2.2.2.2.1 hq
    | posted v g =>
      obtain ⟨g1, g2, g3, g4, g5, g6⟩ := g
      have ha : s.alive = true := by
        cases hd : s.alive with
        | true => rfl
        | false => exact absurd (h.dead hd).1 (by simp)
      have e : event s = { s with queued := 0, handler := .null, log := s.log ++ [.handler v SUCCESS], stack := [.user .plain] } := by
        simp [event, ha, g1, g5, hst]
      rw [e]
      refine ⟨none, false, false, h.ub, .plain, h.hist.called ⟨(h.hist.cur v rfl).1, .inl ⟨rfl, g6⟩⟩, .idle ⟨g2, g3, g4, rfl⟩, by simp, by simp, fun _ => ⟨rfl, rfl, rfl⟩, ?_⟩
      exact expired_snoc h.expired (by simp)
  | leave =>
    have hsh := h.shape
    split at hs <;> first | contradiction | (cases hs)
    rename_i u k hst
    rw [hst] at hsh
    have hp : ∀ k', Phase { s with stack := k' } cur := by
      intro k'
      have hp := h.phase
      cases hp with
      | idle g => exact .idle g
      | running v g => exact .running v g
      | firing v g => exact .firing v g
      | posted v g => exact .posted v g
    generalize hcc : c = c' at hsh
    generalize htt : t = t' at hsh
    cases hsh with
    | plain => exact ⟨cur, false, false, h.ub, .nil, h.hist, hp _, h.junk, by simp, fun hd => ⟨(h.dead hd).1, rfl, rfl⟩, h.expired⟩
    | told =>
      subst htt
      exact ⟨cur, false, true, h.ub, .stopped, h.hist, hp _, h.junk, fun _ => h.quiet (.inr rfl), fun hd => absurd (h.dead hd).2.2 (by simp), h.expired⟩
    | closeTold =>
      subst htt hcc
      exact ⟨cur, true, true, h.ub, .closeStopped, h.hist, hp _, h.junk, fun _ => h.quiet (.inr rfl), fun hd => absurd (h.dead hd).2.2 (by simp), h.expired⟩
  | arm timeout ok =>
    have hsh := h.shape
    split at hs <;> first | contradiction | skip
    rename_i u k hmv hst
    split at hs <;> cases hs
    rename_i ha
    cases hmv
    obtain ⟨hans, hhead⟩ := hr
    have hcur := h.idle_of hans
    subst hcur
    rw [hst] at hhead hsh
    have hu : u = User.plain := by simpa using hhead
    subst hu
    generalize hcc : c = c' at hsh
    generalize htt : t = t' at hsh
    cases hsh
    have hp := h.phase
    cases hp with
    | idle g =>
      obtain ⟨g1, g2, g3, g4⟩ := g
      cases ok with
      | true =>
        have e : arm s timeout true = { s with handler := .set s.next, next := s.next + 1, hEvent := some s.next, live := some s.next, log := s.log ++ [.armed s.next] } := by
          simp [arm, g1, create]
        rw [e]
        refine ⟨some s.next, false, false, h.ub, by rw [show ({ s with handler := .set s.next, next := s.next + 1, hEvent := some s.next, live := some s.next, log := s.log ++ [.armed s.next] } : St).stack = s.stack from rfl, hst]; exact .plain, h.hist.arm, .running s.next ⟨rfl, rfl, rfl, g3, g4, ?_⟩, by simp, by simp, ?_, expired_snoc h.expired (by simp)⟩
        · intro hx
          have hx' : .expired s.next ∈ s.log := by simpa using hx
          exact absurd (h.hist.lt _ (h.expired _ hx')) (by omega)
        · intro hd; rw [show s.alive = false from hd] at ha; cases ha
      | false =>
        have e : arm s timeout false = { s with handler := .set s.next, next := s.next + 1, log := s.log ++ [.refused s.next] } := by
          simp [arm, g1, create]
        rw [e]
        refine ⟨none, false, false, h.ub, by rw [show ({ s with handler := .set s.next, next := s.next + 1, log := s.log ++ [.refused s.next] } : St).stack = s.stack from rfl, hst]; exact .plain, (h.hist.log (by simp) (by simp)).grow, .idle ⟨g1, g2, g3, g4⟩, by simp, by simp, fun _ => ⟨rfl, rfl, rfl⟩, expired_snoc h.expired (by simp)⟩
  | cancel =>
    have hsh := h.shape
    split at hs <;> first | contradiction | skip
    rename_i u k hmv hst
    split at hs <;> cases hs
    rename_i ha
    have hused : Used s.log := hr
    -- the cancellation fails
    have fails (e : cancel s = { s with log := s.log ++ [.cancel false] }) : ∃ cur c t, Inv (cancel s) cur c t := by
      rw [e]
      refine ⟨cur, c, t, h.ub, h.shape, h.hist.log (by simp) (by simp), ?_, fun hj => absurd hused (h.junk hj),
        fun hq => ⟨(h.quiet hq).1, (h.quiet hq).2.1, hused.snoc _⟩, h.dead, expired_snoc h.expired (by simp)⟩
      have hp := h.phase
      cases hp with
      | idle g => exact .idle g
      | running v g => exact .running v ⟨g.1, g.2.1, g.2.2.1, g.2.2.2.1, g.2.2.2.2.1, by simpa using g.2.2.2.2.2⟩
      | firing v g => exact .firing v ⟨g.1, g.2.1, g.2.2.1, g.2.2.2.1, g.2.2.2.2.1, by simpa using g.2.2.2.2.2⟩
      | posted v g => exact .posted v ⟨g.1, g.2.1, g.2.2.1, g.2.2.2.1, g.2.2.2.2.1, by simpa using g.2.2.2.2.2⟩
    have hp := h.phase
    cases hp with
    | idle g =>
      apply fails
      cases hh : s.handler with
      | junk => exact absurd hused (h.junk hh)
      | null => simp [cancel, hh]
      | set w => simp [cancel, hh, cancelSet, g.1]
    | firing v g => exact fails (by simp [cancel, g.1, cancelSet, g.2.1, g.2.2.1, g.2.2.2.1])
    | posted v g => exact fails (by simp [cancel, g.1, cancelSet, g.2.1])
    | running v g =>
      obtain ⟨g1, g2, g3, g4, g5, g6⟩ := g
      have e : cancel s = { s with live := none, hEvent := none, log := s.log ++ [.cancel true] ++ [.handler v OPERATION_ABORTED], stack := .user .byCancel :: .afterCancel :: s.stack } := by
        simp [cancel, g1, cancelSet, g2, g3]
      rw [e]
      have hstk : s.stack = [.user .plain] ∧ c = false ∧ t = false := by
        rw [hst] at hsh
        rw [hst]
        generalize hcc : c = c' at hsh
        generalize htt : t = t' at hsh
        cases hsh with
        | plain => exact ⟨rfl, rfl, rfl⟩
        | told => exact absurd (h.quiet (.inr htt)).1 (by simp)
        | closeTold => exact absurd (h.quiet (.inr htt)).1 (by simp)
      obtain ⟨hk, rfl, rfl⟩ := hstk
      refine ⟨none, false, true, h.ub, by rw [hk]; exact .told, ?_, .idle ⟨rfl, rfl, g4, g5⟩, ?_, fun _ => ⟨rfl, ha, (hused.snoc _).snoc _⟩, ?_, ?_⟩
      · exact (h.hist.log (by simp) (by simp)).called ⟨by simp [(h.hist.cur v rfl).1], .inr ⟨rfl, .inl (by simp)⟩⟩
      · intro hj; rw [show s.handler = .junk from hj] at g1; cases g1
      · intro hd; rw [show s.alive = false from hd] at ha; cases ha
      · exact expired_snoc (expired_snoc h.expired (by simp)) (by simp)
  | close =>
    have hsh := h.shape
    split at hs <;> first | contradiction | skip
    rename_i u k hmv hst
    split at hs <;> cases hs
    rename_i ha
    obtain ⟨hused, hhead, hexp⟩ := hr
    rw [hst] at hhead hsh
    have hu : u = User.plain := by simpa using hhead
    subst hu
    have hstk : s.stack = [.user .plain] := by
      rw [hst]
      generalize hcc : c = c' at hsh
      generalize htt : t = t' at hsh
      cases hsh
      rfl
    -- nothing is running
    have quiet (hc : cur = none) (g : s.hEvent = none ∧ s.live = none ∧ s.firing = none ∧ s.queued = 0)
        (e : close s = { s with log := s.log ++ [.close], stack := .afterClose :: s.stack }) : ∃ cur c t, Inv (close s) cur c t := by
      subst hc
      rw [e]
      exact ⟨none, true, false, h.ub, by rw [hstk]; exact .closing, h.hist.log (by simp) (by simp), .idle g, fun hj => absurd hused (h.junk hj),
        fun _ => ⟨rfl, ha, hused.snoc _⟩, fun hd => absurd ha (by rw [show s.alive = false from hd]; decide), expired_snoc h.expired (by simp)⟩
    have hp := h.phase
    generalize hcu : cur = cc at hp
    cases hp with
    | idle g =>
      refine quiet hcu g ?_
      cases hh : s.handler with
      | junk => exact absurd hused (h.junk hh)
      | null => simp [close, hh]
      | set w => simp [close, hh, cancelSet, g.1]
    | firing v g => have := hexp v g.2.2.2.2.2; rw [(h.hist.cur v hcu).2] at this; cases this
    | posted v g => have := hexp v g.2.2.2.2.2; rw [(h.hist.cur v hcu).2] at this; cases this
    | running v g =>
      subst hcu
      obtain ⟨g1, g2, g3, g4, g5, g6⟩ := g
      have e : close s = { s with live := none, hEvent := none, log := s.log ++ [.close] ++ [.handler v OPERATION_ABORTED], stack := .user .byClose :: .afterCancel :: .afterClose :: s.stack } := by
        simp [close, g1, cancelSet, g2, g3]
      rw [e]
      refine ⟨none, true, true, h.ub, by rw [hstk]; exact .closeTold, ?_, .idle ⟨rfl, rfl, g4, g5⟩, ?_, fun _ => ⟨rfl, ha, (hused.snoc _).snoc _⟩, ?_, ?_⟩
      · exact (h.hist.log (by simp) (by simp)).called ⟨by simp [(h.hist.cur v rfl).1], .inr ⟨rfl, .inr (by simp)⟩⟩
      · intro hj; rw [show s.handler = .junk from hj] at g1; cases g1
      · intro hd; rw [show s.alive = false from hd] at ha; cases ha
      · exact expired_snoc (expired_snoc h.expired (by simp)) (by simp)
  | «continue» =>
    have hsh := h.shape
    split at hs <;> first | contradiction | skip
    · rename_i k hst
      rw [hst] at hsh
      have hq : cur = none ∧ s.alive = true ∧ Used s.log := by
        refine h.quiet (.inr ?_)
        generalize hcc : c = c' at hsh
        generalize htt : t = t' at hsh
        cases hsh <;> rfl
      obtain ⟨rfl, ha, hu⟩ := hq
      rw [if_pos ha] at hs
      cases hs
      have hp := h.phase
      cases hp with
      | idle g =>
        generalize hcc : c = c' at hsh
        generalize htt : t = t' at hsh
        cases hsh with
        | stopped => exact ⟨none, false, false, h.ub, .plain, h.hist, .idle g, by simp, by simp, fun _ => ⟨rfl, rfl, rfl⟩, h.expired⟩
        | closeStopped => exact ⟨none, true, false, h.ub, .closing, h.hist, .idle g, by simp, fun _ => ⟨rfl, ha, hu⟩, fun hd => absurd ha (by rw [show s.alive = false from hd]; decide), h.expired⟩
    · rename_i k hst
      rw [hst] at hsh
      have hq : cur = none ∧ s.alive = true ∧ Used s.log := by
        refine h.quiet (.inl ?_)
        generalize hcc : c = c' at hsh
        generalize htt : t = t' at hsh
        cases hsh <;> rfl
      obtain ⟨rfl, ha, hu⟩ := hq
      rw [if_pos ha] at hs
      cases hs
      have hp := h.phase
      cases hp with
      | idle g =>
        generalize hcc : c = c' at hsh
        generalize htt : t = t' at hsh
        cases hsh with
        | closing => exact ⟨none, false, false, h.ub, .plain, h.hist.log (by simp) (by simp), .idle g, fun hj => absurd hu (h.junk hj), by simp, fun _ => ⟨rfl, rfl, rfl⟩, expired_snoc h.expired (by simp)⟩

theorem reach_inv {s : St} (h : Reach Rules s) : ∃ cur c t, Inv s cur c t := by
  induction h with
  | init =>
    refine ⟨none, false, false, rfl, .nil, ⟨by simp [initial], by simp [initial, calls], by simp [initial], by simp, ?_⟩, .idle ⟨rfl, rfl, rfl, rfl⟩, ?_, by simp, by simp [initial], by simp [initial]⟩
    · intro p o post hl; simp [initial] at hl
    · intro _; simp [Used, initial]
  | step _ hr hs ih =>
    obtain ⟨c, d, e, h⟩ := ih
    exact step_inv h hr hs

/-! ### Theorems -/

/-- C54 (within the rules of use): the handler of an arming is called at most once, it is told the truth, the handler of a refused arming
is not called, and the library never touches a timer that was closed, uses a variable it has not set, or calls a handler that is not there. -/
theorem handler_at_most_once_partial {s : St} (h : Reach Rules s) :
    (∀ t, calls t s.log ≤ 1) ∧ (∀ t, .armed t ∉ s.log → calls t s.log = 0) ∧ Truthful s.log ∧ s.ub = false := by
  obtain ⟨cur, c, d, h⟩ := reach_inv h
  refine ⟨fun t => ?_, h.hist.not, h.hist.truth, h.ub⟩
  by_cases ht : .armed t ∈ s.log
  · by_cases hc : cur = some t
    · rw [(h.hist.cur t hc).2]; omega
    · rw [h.hist.old t ht hc]; omega
  · rw [h.hist.not t ht]; omega

/-- C54 (within the rules of use): no arming is forgotten.  Its handler was called, or the timer runs for it and will call it when the time has
passed, the pool has posted the packet and the event loop goes on, or it is on one of these stages. -/
theorem arming_not_forgotten_partial {s : St} (h : Reach Rules s) (hidle : s.stack = []) {t : Nat} (ht : .armed t ∈ s.log) :
    calls t s.log = 1 ∨ (calls t s.log = 0 ∧
      ((.expired t ∉ s.log ∧ ∃ s', run s [.fire, .finish, .event] = some s' ∧ s'.log = s.log ++ [.expired t, .handler t SUCCESS]) ∨
       (.expired t ∈ s.log ∧ ∃ s', (run s [.finish, .event] = some s' ∨ run s [.event] = some s') ∧ s'.log = s.log ++ [.handler t SUCCESS]))) := by
  obtain ⟨cur, c, d, h⟩ := reach_inv h
  by_cases hc : cur = some t
  · right
    refine ⟨(h.hist.cur t hc).2, ?_⟩
    have ha : s.alive = true := by
      cases hd : s.alive with
      | true => rfl
      | false => have := (h.dead hd).1; rw [hc] at this; cases this
    have hp := h.phase
    rw [hc] at hp
    cases hp with
    | running v g =>
      obtain ⟨g1, g2, g3, g4, g5, g6⟩ := g
      exact .inl ⟨g6, { s with live := none, firing := none, hEvent := none, queued := 0, handler := .null, log := s.log ++ [.expired t, .handler t SUCCESS], stack := [.user .plain] },
        by simp [run, step, finish, event, h.ub, ha, hidle, g1, g3, g5], rfl⟩
    | firing v g =>
      obtain ⟨g1, g2, g3, g4, g5, g6⟩ := g
      exact .inr ⟨g6, { s with firing := none, hEvent := none, queued := 0, handler := .null, log := s.log ++ [.handler t SUCCESS], stack := [.user .plain] },
        .inl (by simp [run, step, finish, event, h.ub, ha, hidle, g1, g4, g5]), rfl⟩
    | posted v g =>
      obtain ⟨g1, g2, g3, g4, g5, g6⟩ := g
      exact .inr ⟨g6, { s with queued := 0, handler := .null, log := s.log ++ [.handler t SUCCESS], stack := [.user .plain] },
        .inr (by simp [run, step, event, h.ub, ha, hidle, g1, g5]), rfl⟩
  · exact .inl (h.hist.old t ht hc)

/-- C54 (within the rules of use): when the close hook was called, the handlers of all armings have been called, and nothing of the timer is left
in the timer queue or the completion port. -/
theorem closed_all_answered_partial {s : St} (h : Reach Rules s) (hc : s.alive = false) :
    AllAnswered s.log ∧ s.live = none ∧ s.firing = none ∧ s.queued = 0 := by
  obtain ⟨cur, c, d, h⟩ := reach_inv h
  obtain ⟨rfl, -, -⟩ := h.dead hc
  refine ⟨fun t ht => h.hist.old t ht (by simp), ?_⟩
  have hp := h.phase
  cases hp with
  | idle g => exact g.2

/-- C54 (within the rules of use): a cancellation before the time has passed tells the handler at once; after the time has passed it fails, and
the handler will be told of success. -/
theorem cancel_result_partial {s s' : St} {t : Nat} (h : Reach Rules s) (ht : .armed t ∈ s.log) (h0 : calls t s.log = 0)
    (hs : step s .cancel = some s') :
    (.expired t ∉ s.log → s'.log = s.log ++ [.cancel true, .handler t OPERATION_ABORTED]) ∧
    (.expired t ∈ s.log → s'.log = s.log ++ [.cancel false]) := by
  obtain ⟨cur, c, d, h⟩ := reach_inv h
  have hc : cur = some t := Classical.byContradiction fun hc => by
    have := h.hist.old t ht hc; omega
  unfold step at hs
  rw [if_neg (by rw [h.ub]; decide)] at hs
  split at hs <;> first | contradiction | skip
  split at hs <;> cases hs
  have hp := h.phase
  rw [hc] at hp
  cases hp with
  | running v g => exact ⟨fun _ => by simp [cancel, g.1, cancelSet, g.2.1, g.2.2.1], fun hx => absurd hx g.2.2.2.2.2⟩
  | firing v g => exact ⟨fun hx => absurd g.2.2.2.2.2 hx, fun _ => by simp [cancel, g.1, cancelSet, g.2.1, g.2.2.1, g.2.2.2.1]⟩
  | posted v g => exact ⟨fun hx => absurd g.2.2.2.2.2 hx, fun _ => by simp [cancel, g.1, cancelSet, g.2.1]⟩

/-! ### What does not hold -/

/-- C54 fails when the timer is closed (or cancelled) before it was armed: `cio_timer_init` does not set the handler. -/
theorem close_before_arming : ∃ s, run initial [.enter, .close] = some s ∧ s.ub = true := ⟨_, rfl, rfl⟩

/-- C54 fails when the timer is closed after its time has passed and before the event loop has seen it: the handler is never called, and the
event loop uses the closed timer. -/
theorem close_forgets_handler : ∃ s, run initial [.enter, .arm 5000000#64 true, .fire, .finish, .close, .continue, .leave] = some s ∧
    s.log = [.armed 0, .expired 0, .close, .hook] ∧ ∃ s', run s [.event] = some s' ∧ s'.ub = true ∧ s'.log = s.log := ⟨_, rfl, rfl, _, rfl, rfl, rfl⟩

/-- ... or the thread of the pool uses it. -/
theorem close_while_firing : ∃ s, run initial [.enter, .arm 5000000#64 true, .fire, .close, .continue, .finish] = some s ∧
    s.log = [.armed 0, .expired 0, .close, .hook] ∧ s.ub = true := ⟨_, rfl, rfl, rfl⟩

/-- C54 fails when the timer is armed again: the handler of the first arming is forgotten. -/
theorem rearm_forgets_handler : ∃ s, run initial [.enter, .arm 5000000#64 true, .arm 5000000#64 true, .fire, .finish, .leave, .event] = some s ∧
    s.log = [.armed 0, .armed 1, .expired 1, .handler 1 SUCCESS] ∧ s.live = none ∧ s.firing = none ∧ s.queued = 0 := ⟨_, rfl, rfl, rfl, rfl, rfl⟩

/-- C54 fails when the timer is armed again and this is refused: the first arming is gone, too (its timer was deleted), and neither handler is ever called. -/
theorem refused_rearm_forgets_handler : ∃ s, run initial [.enter, .arm 5000000#64 true, .arm 5000000#64 false, .leave] = some s ∧
    s.log = [.armed 0, .refused 1] ∧ s.live = none ∧ s.firing = none ∧ s.queued = 0 ∧ step s .fire = none ∧ step s .event = none := ⟨_, rfl, rfl, rfl, rfl, rfl, rfl, rfl⟩

/-- C54 fails when the timer is armed again while a packet is in the completion port: the new handler is told of success before its time has
passed, and when the time has passed a NULL pointer is called. -/
theorem rearm_calls_null : ∃ s, run initial [.enter, .arm 5000000#64 true, .fire, .finish, .arm 9000000#64 true, .leave, .event, .leave] = some s ∧
    s.log = [.armed 0, .expired 0, .armed 1, .handler 1 SUCCESS] ∧ ∃ s', run s [.fire, .finish, .event] = some s' ∧ s'.ub = true := ⟨_, rfl, rfl, _, rfl, rfl⟩

/-- C54 fails when the timer is armed again while the pool is calling back: the arming is refused, but its handler is called, with success. -/
theorem refused_handler_called : ∃ s, run initial [.enter, .arm 5000000#64 true, .fire, .arm 9000000#64 true, .leave, .finish, .event] = some s ∧
    s.log = [.armed 0, .expired 0, .refused 1, .handler 1 SUCCESS] := ⟨_, rfl, rfl⟩

/-- A handler told of an abortion must not arm the timer: the new handler is forgotten, a NULL pointer is called when the time has passed. -/
theorem arm_in_aborted_handler : ∃ s, run initial [.enter, .arm 5000000#64 true, .cancel, .arm 9000000#64 true, .leave, .continue, .leave] = some s ∧
    s.log = [.armed 0, .cancel true, .handler 0 OPERATION_ABORTED, .armed 1] ∧ ∃ s', run s [.fire, .finish, .event] = some s' ∧ s'.ub = true := ⟨_, rfl, rfl, _, rfl, rfl⟩

/-- A handler told of an abortion by `cio_timer_cancel` must not close the timer. -/
theorem close_in_aborted_handler : ∃ s, run initial [.enter, .arm 5000000#64 true, .cancel, .close, .continue, .leave, .continue] = some s ∧ s.ub = true :=
  ⟨_, rfl, rfl⟩

/-! ### Conversion of the timeout -/

/-- C54: for timeouts below 2^32 milliseconds the time given to the timer queue is the timeout in milliseconds, rounded down. -/
theorem timeout_converted_partial (timeout : BitVec 64) (h : timeout.toNat < 2 ^ 32 * 1000000) :
    (msec timeout).toNat * 1000000 ≤ timeout.toNat ∧ timeout.toNat < (msec timeout).toNat * 1000000 + 1000000 := by
  have e : (msec timeout).toNat = timeout.toNat / 1000000 := by
    show ((timeout / 1000000#64).setWidth 32).toNat = _
    rw [BitVec.toNat_setWidth, BitVec.toNat_udiv, show (1000000#64).toNat = 1000000 from rfl]
    omega
  rw [e]
  omega

/-- Timers may expire early: a timeout of just below a millisecond is no time at all. -/
theorem short_timeout_is_zero : msec 999999#64 = 0#32 := by decide

/-- A timeout of 2^32 milliseconds (about 50 days) is no time at all. -/
theorem long_timeout_is_zero : msec 4294967296000000#64 = 0#32 := by decide

/-! ### Non-vacuity -/

instance (l : List Obs) : Decidable (AllAnswered l) :=
  decidable_of_iff ((l.all fun o => match o with | .armed t => calls t l == 1 | _ => true) = true) (by
    unfold AllAnswered
    rw [List.all_eq_true]
    constructor
    · intro h t hm
      simpa using h _ hm
    · intro h o ho
      cases o with
      | armed t => simpa using h t ho
      | _ => rfl)

instance (l : List Obs) : Decidable (ExpiriesReported l) :=
  decidable_of_iff ((l.all fun o => match o with | .expired t => calls t l == 1 | _ => true) = true) (by
    unfold ExpiriesReported
    rw [List.all_eq_true]
    constructor
    · intro h t hm
      simpa using h _ hm
    · intro h o ho
      cases o with
      | expired t => simpa using h t ho
      | _ => rfl)

instance (l : List Obs) : Decidable (Used l) :=
  decidable_of_iff ((l.any fun o => match o with | .armed _ | .refused _ => true | _ => false) = true) (by
    unfold Used
    rw [List.any_eq_true]
    constructor
    · rintro ⟨o, ho, h⟩
      cases o with
      | armed t => exact ⟨t, .inl ho⟩
      | refused t => exact ⟨t, .inr ho⟩
      | _ => cases h
    · rintro ⟨t, h | h⟩ <;> exact ⟨_, h, rfl⟩)

instance (s : St) (m : Move) : Decidable (Rules s m) := by cases m <;> unfold Rules <;> infer_instance

/-- Run within the rules. -/
def runRules : St → List Move → Option St
  | s, [] => some s
  | s, m :: ms => if Rules s m then (step s m).bind fun s => runRules s ms else none

theorem reach_runRules (ms : List Move) : ∀ {s s' : St}, Reach Rules s → runRules s ms = some s' → Reach Rules s' := by
  induction ms with
  | nil => intro s s' h hr; cases hr; exact h
  | cons x ms ih =>
    intro s s' h hr
    unfold runRules at hr
    split at hr
    · rename_i hb
      rw [Option.bind_eq_some_iff] at hr
      obtain ⟨t, h1, h2⟩ := hr
      exact ih (.step h hb h1) h2
    · cases hr

/-- A refused arming; arm, expire, be told; arm again in the handler; cancel; cancel too late; arm, close. -/
def exampleMoves : List Move :=
  [.enter, .arm 1000000#64 false, .arm 5000000#64 true, .leave, .fire, .finish, .event, .arm 7000000#64 true, .leave, .enter, .cancel, .cancel, .leave, .continue,
   .arm 9000000#64 true, .fire, .cancel, .leave, .finish, .event, .arm 1000000#64 true, .close, .leave, .continue, .continue, .leave]

example : ∃ s, Reach Rules s ∧ s.alive = false ∧ s.stack = [] ∧ s.log =
    [.refused 0, .armed 1, .expired 1, .handler 1 SUCCESS, .armed 2, .cancel true, .handler 2 OPERATION_ABORTED, .cancel false, .armed 3, .expired 3,
     .cancel false, .handler 3 SUCCESS, .armed 4, .close, .handler 4 OPERATION_ABORTED, .hook] := by
  refine ⟨(runRules initial exampleMoves).getD initial, reach_runRules exampleMoves .init ?_, ?_, ?_, ?_⟩ <;> decide

end Cio.Windows.Timer
