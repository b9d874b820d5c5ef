import Verif.Zephyr.LoopModel
import Mathlib.Tactic.FinCases
import Mathlib.Data.List.Induction
/-
Property theorems for the event loop of the Zephyr port (C48).
-/
namespace Cio.Zephyr.Loop

/-! ### Specification -/

/-- The notifiers whose events were queued, in order. -/
def adds (l : List Obs) : List Nat := l.filterMap fun o => match o with
  | .add n => some n
  | _ => none

/-- The notifiers whose callbacks were called, in order. -/
def calls (l : List Obs) : List Nat := l.filterMap fun o => match o with
  | .call n => some n
  | _ => none

/-- Whether `n` is removed after `l`, if it is `r` at the beginning. -/
def isRemoved (n : Nat) : List Obs → Bool → Bool
  | [], r => r
  | .init m :: l, r => isRemoved n l (if m = n then false else r)
  | .remove m :: l, r => isRemoved n l (if m = n then true else r)
  | _ :: l, r => isRemoved n l r

/-- `n` is not removed at any time. -/
def NeverRemoved (n : Nat) (l : List Obs) : Prop := Obs.remove n ∉ l

/-- The part behind the last cancellation. -/
def sinceCancel : List Obs → List Obs → List Obs
  | [], acc => acc
  | .cancel :: l, _ => sinceCancel l []
  | o :: l, acc => sinceCancel l (acc ++ [o])

/-- States reached by moves that keep to `rules`. -/
inductive Reach (r0 : Nat → Bool) (rules : St → Move → Prop) : St → Prop
  | init : Reach r0 rules (initial r0)
  | step {s s' : St} {m : Move} (h : Reach r0 rules s) (hr : rules s m) (hs : step s m = some s') : Reach r0 rules s'

/-- Any use. -/
def Any (_ : St) (_ : Move) : Prop := True

/-- There is always room in the queue. -/
def Room (s : St) : Move → Prop
  | .irq _ | .add _ => s.queue.length < queueSize
  | .cancel burst => burst.length < queueSize
  | _ => True

/-- No interrupt happens in the middle of `cio_eventloop_cancel`. -/
def Calm (_ : St) : Move → Prop
  | .cancel burst => burst = []
  | _ => True

/-- The loop was cancelled, and `cio_eventloop_run` has not returned since. -/
def stopping : List Obs → Bool → Bool
  | [], c => c
  | .cancel :: l, _ => stopping l true
  | .done _ :: l, _ => stopping l false
  | _ :: l, c => stopping l c

/-! ### Lemmas -/

theorem adds_snoc (l : List Obs) (o : Obs) : adds (l ++ [o]) = adds l ++ (match o with | .add n => [n] | _ => []) := by
  unfold adds; rw [List.filterMap_append]; cases o <;> rfl

theorem calls_snoc (l : List Obs) (o : Obs) : calls (l ++ [o]) = calls l ++ (match o with | .call n => [n] | _ => []) := by
  unfold calls; rw [List.filterMap_append]; cases o <;> rfl

theorem isRemoved_snoc (n : Nat) (l : List Obs) (o : Obs) : ∀ r, isRemoved n (l ++ [o]) r = isRemoved n [o] (isRemoved n l r) := by
  induction l with
  | nil => intro r; rfl
  | cons x l ih => intro r; cases x <;> exact ih _

/-- The users' events in the queue. -/
def evs (q : List Msg) : List Nat := q.filterMap fun m => match m with
  | .ev n => some n
  | .stop => none

theorem evs_snoc (q : List Msg) (n : Nat) : evs (q ++ [.ev n]) = evs q ++ [n] := by
  unfold evs; rw [List.filterMap_append]; rfl

theorem evs_stop (q : List Msg) : evs (q ++ [.stop]) = evs q := by
  unfold evs; rw [List.filterMap_append]; simp

theorem irqs (b : List Nat) : ∀ s : St, ∃ c, c <+: b ∧ (b.foldl irq s).queue = s.queue ++ c.map .ev ∧ (b.foldl irq s).log = s.log ++ c.map .add ∧
    (b.foldl irq s).thread = s.thread ∧ (b.foldl irq s).removed = s.removed ∧
    (s.queue.length + b.length ≤ queueSize → c = b ∧ (b.foldl irq s).ub = s.ub) := by
  induction b with
  | nil => intro s; exact ⟨[], by simp⟩
  | cons n b ih =>
    intro s
    simp only [List.foldl_cons]
    by_cases h : s.queue.length < queueSize
    · have e : irq s n = { s with queue := s.queue ++ [.ev n], log := s.log ++ [.add n] } := by unfold irq; rw [if_pos h]
      rw [e]
      obtain ⟨c, h1, h2, h3, h4, h5, h6⟩ := ih { s with queue := s.queue ++ [.ev n], log := s.log ++ [.add n] }
      refine ⟨n :: c, by simpa using h1, by rw [h2]; simp, by rw [h3]; simp, h4, h5, ?_⟩
      intro hl
      have := h6 (by simp only [List.length_append, List.length_cons, List.length_nil] at hl ⊢; omega)
      exact ⟨by rw [this.1], this.2⟩
    · have e : irq s n = { s with ub := true } := by unfold irq; rw [if_neg h]
      rw [e]
      have hfull : ∀ (b : List Nat) (s : St), ¬ s.queue.length < queueSize → (b.foldl irq s).queue = s.queue ∧ (b.foldl irq s).log = s.log ∧
          (b.foldl irq s).thread = s.thread ∧ (b.foldl irq s).removed = s.removed := by
        intro b
        induction b with
        | nil => intro s _; simp
        | cons m b ih =>
          intro s hs
          simp only [List.foldl_cons]
          have e : irq s m = { s with ub := true } := by unfold irq; rw [if_neg hs]
          rw [e]
          exact ih { s with ub := true } hs
      obtain ⟨a1, a2, a3, a4⟩ := hfull b { s with ub := true } h
      refine ⟨[], by simp, by simp [a1], by simp [a2], a3, a4, ?_⟩
      intro hl
      simp only [List.length_cons] at hl
      omega

theorem stopping_snoc (l : List Obs) (o : Obs) : ∀ c, stopping (l ++ [o]) c = stopping [o] (stopping l c) := by
  induction l with
  | nil => intro r; rfl
  | cons x l ih => intro r; cases x <;> exact ih _

theorem sinceCancel_append (l k : List Obs) : ∀ acc, sinceCancel (l ++ k) acc = sinceCancel k (sinceCancel l acc) := by
  induction l with
  | nil => intro acc; rfl
  | cons x l ih => intro acc; cases x <;> exact ih _

theorem sinceCancel_adds (c : List Nat) : ∀ acc, sinceCancel (c.map .add) acc = acc ++ c.map .add := by
  induction c with
  | nil => intro acc; simp [sinceCancel]
  | cons x l ih => intro acc; simp [sinceCancel, ih]

theorem adds_map (c : List Nat) : adds (c.map .add) = c := by
  induction c with
  | nil => rfl
  | cons x l ih => unfold adds at ih ⊢; simp [ih]

theorem calls_map (c : List Nat) : calls (c.map .add) = [] := by
  induction c with
  | nil => rfl
  | cons x l ih => unfold calls at ih ⊢; simp [ih]

theorem evs_map (c : List Nat) : evs (c.map .ev) = c := by
  induction c with
  | nil => rfl
  | cons x l ih => unfold evs at ih ⊢; simp [ih]

theorem adds_append (a b : List Obs) : adds (a ++ b) = adds a ++ adds b := by unfold adds; simp
theorem calls_append (a b : List Obs) : calls (a ++ b) = calls a ++ calls b := by unfold calls; simp
theorem evs_append (a b : List Msg) : evs (a ++ b) = evs a ++ evs b := by unfold evs; simp

theorem isRemoved_append (n : Nat) (l k : List Obs) : ∀ r, isRemoved n (l ++ k) r = isRemoved n k (isRemoved n l r) := by
  induction l with
  | nil => intro acc; rfl
  | cons x l ih => intro acc; cases x <;> exact ih _

theorem isRemoved_adds (n : Nat) (c : List Nat) : ∀ r, isRemoved n (c.map .add) r = r := by
  induction c with
  | nil => intro r; rfl
  | cons x l ih => intro r; simp [isRemoved, ih]

theorem isRemoved_never (n : Nat) (l : List Obs) : NeverRemoved n l → isRemoved n l false = false := by
  unfold NeverRemoved
  induction l with
  | nil => intro _; rfl
  | cons x l ih =>
    intro h
    simp only [List.mem_cons, not_or] at h
    cases x with
    | remove m =>
      have : m ≠ n := fun e => h.1 (by rw [e])
      simp only [isRemoved, if_neg this]
      exact ih h.2
    | init m => simp only [isRemoved]; split <;> exact ih h.2
    | _ => exact ih h.2

/-- Every callback is one of a notifier that is not removed at that time. -/
def NotRemoved (r0 : Nat → Bool) (l : List Obs) : Prop := ∀ p n post, l = p ++ .call n :: post → isRemoved n p (r0 n) = false

theorem NotRemoved.snoc {r0 : Nat → Bool} {l : List Obs} (h : NotRemoved r0 l) {o : Obs} (ho : ∀ n, o = .call n → isRemoved n l (r0 n) = false) :
    NotRemoved r0 (l ++ [o]) := by
  intro p n post hl
  rcases List.append_eq_append_iff.mp hl with ⟨a, h1, h2⟩ | ⟨c, h1, h2⟩
  · cases a with
    | nil =>
      simp only [List.nil_append, List.append_nil, List.cons.injEq] at h1 h2
      subst h1
      exact ho n h2.1
    | cons y ys => simp at h2
  · cases c with
    | nil =>
      simp only [List.nil_append, List.append_nil, List.cons.injEq] at h1 h2
      subst h1
      exact ho n h2.1.symm
    | cons y ys =>
      simp only [List.cons_append, List.cons.injEq] at h2
      obtain ⟨rfl, rfl⟩ := h2
      exact h p n ys h1

theorem NotRemoved.adds {r0 : Nat → Bool} {l : List Obs} (h : NotRemoved r0 l) (c : List Nat) : NotRemoved r0 (l ++ c.map .add) := by
  induction c generalizing l with
  | nil => simpa using h
  | cons n c ih =>
    have := ih (h.snoc (o := .add n) (by intro n h; cases h))
    simpa using this

/-- What holds in every state that can be reached. -/
structure Inv (r0 : Nat → Bool) (s : St) : Prop where
  removed : ∀ n, s.removed n = isRemoved n s.log (r0 n)
  truth : NotRemoved r0 s.log
  sub : (calls s.log ++ evs s.queue).Sublist (adds s.log)

theorem put_other (s : St) (m : Msg) : (put s m).removed = s.removed ∧ (put s m).log = s.log ∧ (put s m).ub = s.ub ∧
    ((put s m).queue = s.queue ++ [m] ∨ (put s m).queue = s.queue) := by
  unfold put; split <;> simp

theorem Inv.cancel {r0 : Nat → Bool} {s : St} (h : Inv r0 s) (burst : List Nat) : Inv r0 (cancel s burst) := by
  unfold Loop.cancel
  obtain ⟨c, -, h2, h3, h4, h5, -⟩ := irqs burst { s with queue := [], log := s.log ++ [.cancel] }
  generalize burst.foldl irq { s with queue := [], log := s.log ++ [.cancel] } = t at h2 h3 h4 h5
  obtain ⟨p1, p2, -, p3⟩ := put_other t .stop
  have hl : (put t .stop).log = s.log ++ [.cancel] ++ c.map .add := by rw [p2, h3]
  have hq : evs (put t .stop).queue = c := by
    rcases p3 with e | e <;> rw [e]
    · rw [evs_stop, h2]; simp [evs_map]
    · rw [h2]; simp [evs_map]
  constructor
  · intro n
    rw [p1, h5, hl, isRemoved_append, isRemoved_append, isRemoved_adds]
    exact h.removed n
  · rw [hl]
    exact (h.truth.snoc (by intro n h; cases h)).adds c
  · rw [hl, hq, calls_append, calls_append, calls_map, adds_append, adds_append, adds_map]
    have hs : (calls s.log).Sublist (Loop.adds s.log) := (List.sublist_append_left _ _).trans h.sub
    simpa [Loop.adds, calls] using hs.append (List.Sublist.refl c)

theorem Inv.step {r0 : Nat → Bool} {s s' : St} {m : Move} (h : Inv r0 s) (hs : step s m = some s') : Inv r0 s' := by
  unfold Loop.step at hs
  by_cases hub : s.ub = true
  · rw [if_pos hub] at hs; cases hs
  rw [if_neg hub] at hs
  cases m with
  | irq n =>
    simp only [Option.some.injEq] at hs
    subst hs
    unfold irq
    split
    · refine ⟨fun x => by rw [isRemoved_snoc]; exact h.removed x, h.truth.snoc (by intro n h; cases h), ?_⟩
      show (calls (s.log ++ [.add n]) ++ evs (s.queue ++ [.ev n])).Sublist (adds (s.log ++ [.add n]))
      rw [calls_snoc, adds_snoc, evs_snoc]
      simpa using h.sub.append (List.Sublist.refl [n])
    · exact ⟨h.removed, h.truth, h.sub⟩
  | add n =>
    dsimp only at hs
    split at hs <;> cases hs
    unfold put
    have hr : ∀ x, s.removed x = isRemoved x (s.log ++ [.add n]) (r0 x) := fun x => by rw [isRemoved_snoc]; exact h.removed x
    have ht : NotRemoved r0 (s.log ++ [.add n]) := h.truth.snoc (by intro n h; cases h)
    split
    · refine ⟨hr, ht, ?_⟩
      show (calls (s.log ++ [.add n]) ++ evs (s.queue ++ [.ev n])).Sublist (adds (s.log ++ [.add n]))
      rw [calls_snoc, adds_snoc, evs_snoc]
      simpa using h.sub.append (List.Sublist.refl [n])
    · refine ⟨hr, ht, ?_⟩
      show (calls (s.log ++ [.add n]) ++ evs s.queue).Sublist (adds (s.log ++ [.add n]))
      rw [calls_snoc, adds_snoc]
      simpa using h.sub.trans (List.sublist_append_left _ _)
  | init n =>
    dsimp only at hs
    split at hs <;> cases hs
    refine ⟨fun x => ?_, h.truth.snoc (by intro n h; cases h), ?_⟩
    · rw [isRemoved_snoc]
      show (if x = n then false else s.removed x) = _
      simp only [isRemoved, ← h.removed x, eq_comm (a := x)]
    · show (calls (s.log ++ [.init n]) ++ evs s.queue).Sublist (adds (s.log ++ [.init n]))
      rw [calls_snoc, adds_snoc]
      simpa using h.sub
  | remove n =>
    dsimp only at hs
    split at hs <;> cases hs
    refine ⟨fun x => ?_, h.truth.snoc (by intro n h; cases h), ?_⟩
    · rw [isRemoved_snoc]
      show (if x = n then true else s.removed x) = _
      simp only [isRemoved, ← h.removed x, eq_comm (a := x)]
    · show (calls (s.log ++ [.remove n]) ++ evs s.queue).Sublist (adds (s.log ++ [.remove n]))
      rw [calls_snoc, adds_snoc]
      simpa using h.sub
  | cancel burst =>
    dsimp only at hs
    split at hs <;> cases hs
    exact h.cancel burst
  | start =>
    dsimp only at hs
    split at hs <;> cases hs
    refine ⟨fun x => by rw [isRemoved_snoc]; exact h.removed x, h.truth.snoc (by intro n h; cases h), ?_⟩
    show (calls (s.log ++ [.start]) ++ evs s.queue).Sublist (adds (s.log ++ [.start]))
    rw [calls_snoc, adds_snoc]
    simpa using h.sub
  | leave =>
    dsimp only at hs
    split at hs <;> cases hs
    exact ⟨h.removed, h.truth, h.sub⟩
  | get =>
    dsimp only at hs
    split at hs <;> cases hs
    rename_i m q hth hq
    unfold iterate
    cases m with
    | stop =>
      refine ⟨fun x => by rw [isRemoved_snoc]; exact h.removed x, h.truth.snoc (by intro n h; cases h), ?_⟩
      show (calls (s.log ++ [.done SUCCESS]) ++ evs q).Sublist (adds (s.log ++ [.done SUCCESS]))
      rw [calls_snoc, adds_snoc]
      have := h.sub
      rw [hq] at this
      simpa [evs] using this
    | ev n =>
      have hsub := h.sub
      rw [hq] at hsub
      show Inv r0 (if s.removed n then _ else _)
      split
      · refine ⟨h.removed, h.truth, ?_⟩
        refine List.Sublist.trans ?_ hsub
        exact List.Sublist.append (List.Sublist.refl _) (by simp [evs])
      · rename_i hr
        refine ⟨fun x => by rw [isRemoved_snoc]; exact h.removed x, h.truth.snoc ?_, ?_⟩
        · intro x hx
          cases hx
          rw [← h.removed]
          simpa using hr
        · show (calls (s.log ++ [.call n]) ++ evs q).Sublist (adds (s.log ++ [.call n]))
          rw [calls_snoc, adds_snoc]
          simpa [evs] using hsub

theorem Reach.inv {r0 : Nat → Bool} {rules : St → Move → Prop} {s : St} (h : Reach r0 rules s) : Inv r0 s := by
  induction h with
  | init => exact ⟨fun _ => rfl, by intro p n post h; simp [initial] at h, by simp [initial, calls, adds, evs]⟩
  | step _ _ hs ih => exact ih.step hs

theorem NeverRemoved.left {n : Nat} {l k : List Obs} (h : NeverRemoved n (l ++ k)) : NeverRemoved n l :=
  fun hm => h (List.mem_append_left _ hm)

/-- What holds as long as there is room in the queue. -/
structure Inv2 (r0 : Nat → Bool) (s : St) : Prop where
  ub : s.ub = false
  free : ∀ m b, s.thread ≠ .stuck m b
  kept : ∀ keep : Nat → Bool, (∀ n, keep n = true → r0 n = false ∧ NeverRemoved n s.log) →
    (adds (sinceCancel s.log [])).filter keep = (calls (sinceCancel s.log []) ++ evs s.queue).filter keep

theorem sinceCancel_snoc (l : List Obs) (o : Obs) (h : o ≠ .cancel) : sinceCancel (l ++ [o]) [] = sinceCancel l [] ++ [o] := by
  rw [sinceCancel_append]; cases o <;> first | rfl | exact absurd rfl h

theorem Inv2.log {r0 : Nat → Bool} {s : St} (h : Inv2 r0 s) {o : Obs} (ho : o ≠ .cancel) (ha : ∀ n, o ≠ .add n) (hc : ∀ n, o ≠ .call n)
    {s' : St} (hq : s'.queue = s.queue) (hu : s'.ub = s.ub) (ht : ∀ m b, s'.thread ≠ .stuck m b) (hl : s'.log = s.log ++ [o]) : Inv2 r0 s' := by
  refine ⟨by rw [hu]; exact h.ub, ht, ?_⟩
  intro keep hk
  rw [hl] at hk ⊢
  rw [sinceCancel_snoc _ _ ho, adds_snoc, calls_snoc, hq]
  have := h.kept keep (fun n hn => ⟨(hk n hn).1, (hk n hn).2.left⟩)
  cases o with
  | add n => exact absurd rfl (ha n)
  | call n => exact absurd rfl (hc n)
  | _ => simpa using this

theorem Inv2.step {r0 : Nat → Bool} {s s' : St} {m : Move} (hi : Inv r0 s) (h : Inv2 r0 s) (hr : Room s m) (hs : step s m = some s') :
    Inv2 r0 s' := by
  unfold Loop.step at hs
  rw [if_neg (by rw [h.ub]; decide)] at hs
  cases m with
  | irq n =>
    simp only [Option.some.injEq] at hs
    subst hs
    unfold irq
    rw [if_pos (show s.queue.length < queueSize from hr)]
    refine ⟨h.ub, h.free, ?_⟩
    intro keep hk
    show List.filter keep (adds (sinceCancel (s.log ++ [.add n]) [])) = (calls (sinceCancel (s.log ++ [.add n]) []) ++ evs (s.queue ++ [.ev n])).filter keep
    rw [sinceCancel_snoc _ _ (by simp), adds_snoc, calls_snoc, evs_snoc]
    have := h.kept keep (fun n hn => ⟨(hk n hn).1, (hk n hn).2.left⟩)
    rw [List.filter_append, this]
    simp
  | add n =>
    dsimp only at hs
    split at hs <;> cases hs
    unfold put
    rw [if_pos (show ({ s with log := s.log ++ [.add n] } : St).queue.length < queueSize from hr)]
    refine ⟨h.ub, h.free, ?_⟩
    intro keep hk
    show List.filter keep (adds (sinceCancel (s.log ++ [.add n]) [])) = (calls (sinceCancel (s.log ++ [.add n]) []) ++ evs (s.queue ++ [.ev n])).filter keep
    rw [sinceCancel_snoc _ _ (by simp), adds_snoc, calls_snoc, evs_snoc]
    have := h.kept keep (fun n hn => ⟨(hk n hn).1, (hk n hn).2.left⟩)
    rw [List.filter_append, this]
    simp
  | init n =>
    dsimp only at hs
    split at hs <;> cases hs
    exact h.log (o := .init n) (by simp) (by simp) (by simp) rfl rfl h.free rfl
  | remove n =>
    dsimp only at hs
    split at hs <;> cases hs
    exact h.log (o := .remove n) (by simp) (by simp) (by simp) rfl rfl h.free rfl
  | cancel burst =>
    dsimp only at hs
    split at hs <;> cases hs
    unfold Loop.cancel
    obtain ⟨c, -, h2, h3, h4, h5, h6⟩ := irqs burst { s with queue := [], log := s.log ++ [.cancel] }
    have hb : burst.length < queueSize := hr
    obtain ⟨rfl, hu⟩ := h6 (by simpa using hb.le)
    generalize List.foldl irq { s with queue := [], log := s.log ++ [.cancel] } c = t at h2 h3 h4 h5 hu
    have hroom : t.queue.length < queueSize := by rw [h2]; simpa using hb
    unfold put
    rw [if_pos hroom]
    refine ⟨by rw [← h.ub]; exact hu, by rw [show ({ t with queue := t.queue ++ [.stop] } : St).thread = s.thread from h4]; exact h.free, ?_⟩
    intro keep _
    show List.filter keep (adds (sinceCancel t.log [])) = (calls (sinceCancel t.log []) ++ evs (t.queue ++ [.stop])).filter keep
    rw [evs_stop, h3, h2, sinceCancel_append, sinceCancel_adds, sinceCancel_append]
    simp [sinceCancel, adds_map, calls_map, evs_map]
  | start =>
    dsimp only at hs
    split at hs <;> cases hs
    exact h.log (o := .start) (by simp) (by simp) (by simp) rfl rfl (by simp) rfl
  | leave =>
    dsimp only at hs
    split at hs <;> cases hs
    exact ⟨h.ub, by simp, h.kept⟩
  | get =>
    dsimp only at hs
    split at hs <;> cases hs
    rename_i m q hth hq
    unfold iterate
    have hkept := h.kept
    rw [hq] at hkept
    cases m with
    | stop =>
      refine Inv2.log (s := { s with queue := q }) ⟨h.ub, h.free, ?_⟩ (o := .done SUCCESS) (by simp) (by simp) (by simp) rfl rfl (by simp) rfl
      intro keep hk
      have := hkept keep hk
      simpa [evs] using this
    | ev n =>
      show Inv2 r0 (if s.removed n then _ else _)
      split
      · rename_i hr
        refine ⟨h.ub, h.free, ?_⟩
        intro keep hk
        have := hkept keep hk
        have hn : keep n = false := by
          cases hkn : keep n with
          | false => rfl
          | true =>
            obtain ⟨a, b⟩ := hk n hkn
            rw [hi.removed, a, isRemoved_never n _ b] at hr
            cases hr
        rw [this]
        show (calls (sinceCancel s.log []) ++ evs (.ev n :: q)).filter keep = _
        simp [evs, hn]
      · rename_i hr
        refine ⟨h.ub, by simp, ?_⟩
        intro keep hk
        show List.filter keep (adds (sinceCancel (s.log ++ [.call n]) [])) = (calls (sinceCancel (s.log ++ [.call n]) []) ++ evs q).filter keep
        rw [sinceCancel_snoc _ _ (by simp), adds_snoc, calls_snoc]
        have := hkept keep (fun n hn => ⟨(hk n hn).1, (hk n hn).2.left⟩)
        simp only [List.append_nil]
        rw [this]
        simp [evs, List.filter_append]

theorem Reach.inv2 {r0 : Nat → Bool} {s : St} (h : Reach r0 Room s) : Inv2 r0 s := by
  induction h with
  | init => exact ⟨rfl, by simp [initial], by intro _ _; simp [initial, sinceCancel, calls, adds, evs]⟩
  | step h hr hs ih => exact ih.step h.inv hr hs

/-- What holds as long as no interrupt happens in the middle of a cancellation. -/
structure Inv3 (s : St) : Prop where
  yes : stopping s.log false = true → ∃ q, s.queue = .stop :: q ∧ .stop ∉ q
  no : stopping s.log false = false → .stop ∉ s.queue
  silent : ∀ p o post, s.log = p ++ o :: post → (∀ n, o = .call n → stopping p false = false) ∧ (∀ e, o = .done e → stopping p false = true)

theorem silent_snoc {l : List Obs} {o : Obs}
    (h : ∀ p o post, l = p ++ o :: post → (∀ n, o = .call n → stopping p false = false) ∧ (∀ e, o = .done e → stopping p false = true))
    (ho : (∀ n, o = .call n → stopping l false = false) ∧ (∀ e, o = .done e → stopping l false = true)) :
    ∀ p o' post, l ++ [o] = p ++ o' :: post → (∀ n, o' = .call n → stopping p false = false) ∧ (∀ e, o' = .done e → stopping p false = true) := by
  intro p n post hl
  rcases List.append_eq_append_iff.mp hl with ⟨a, h1, h2⟩ | ⟨c, h1, h2⟩
  · cases a with
    | nil =>
      simp only [List.nil_append, List.append_nil, List.cons.injEq] at h1 h2
      subst h1
      rw [← h2.1]
      exact ho
    | cons y ys => simp at h2
  · cases c with
    | nil =>
      simp only [List.nil_append, List.append_nil, List.cons.injEq] at h1 h2
      subst h1
      rw [h2.1]
      exact ho
    | cons y ys =>
      simp only [List.cons_append, List.cons.injEq] at h2
      obtain ⟨rfl, rfl⟩ := h2
      exact h p n ys h1

/-- Something that is neither a cancellation nor a callback nor a return of the loop. -/
theorem Inv3.log {s s' : St} (h : Inv3 s) {o : Obs} (ho : o ≠ .cancel) (hd : ∀ e, o ≠ .done e) (hc : ∀ n, o ≠ .call n)
    (hq : s'.queue = s.queue ∨ ∃ n, s'.queue = s.queue ++ [.ev n]) (hl : s'.log = s.log ++ [o]) : Inv3 s' := by
  have hst : stopping s'.log false = stopping s.log false := by
    rw [hl, stopping_snoc]
    cases o <;> first | rfl | exact absurd rfl ho | exact absurd rfl (hd _)
  refine ⟨?_, ?_, ?_⟩
  · intro hy
    obtain ⟨q, h1, h2⟩ := h.yes (by rw [← hst]; exact hy)
    rcases hq with e | ⟨n, e⟩
    · exact ⟨q, by rw [e, h1], h2⟩
    · exact ⟨q ++ [.ev n], by rw [e, h1]; rfl, by simp [h2]⟩
  · intro hn
    have := h.no (by rw [← hst]; exact hn)
    rcases hq with e | ⟨n, e⟩ <;> rw [e]
    · exact this
    · simp [this]
  · rw [hl]
    exact silent_snoc h.silent ⟨fun n e => absurd e (hc n), fun e he => absurd he (hd e)⟩

theorem put_queue (s : St) (n : Nat) : (put s (.ev n)).queue = s.queue ∨ ∃ k, (put s (.ev n)).queue = s.queue ++ [.ev k] := by
  unfold put; split
  · exact .inr ⟨n, rfl⟩
  · exact .inl rfl

theorem Inv3.step {s s' : St} {m : Move} (h : Inv3 s) (hr : Calm s m) (hs : step s m = some s') : Inv3 s' := by
  unfold Loop.step at hs
  by_cases hub : s.ub = true
  · rw [if_pos hub] at hs; cases hs
  rw [if_neg hub] at hs
  cases m with
  | irq n =>
    simp only [Option.some.injEq] at hs
    subst hs
    unfold irq
    split
    · exact h.log (o := .add n) (by simp) (by simp) (by simp) (.inr ⟨n, rfl⟩) rfl
    · exact ⟨h.yes, h.no, h.silent⟩
  | add n =>
    dsimp only at hs
    split at hs <;> cases hs
    exact h.log (o := .add n) (by simp) (by simp) (by simp) (put_queue { s with log := s.log ++ [.add n] } n) (put_other _ _).2.1
  | init n =>
    dsimp only at hs
    split at hs <;> cases hs
    exact h.log (o := .init n) (by simp) (by simp) (by simp) (.inl rfl) rfl
  | remove n =>
    dsimp only at hs
    split at hs <;> cases hs
    exact h.log (o := .remove n) (by simp) (by simp) (by simp) (.inl rfl) rfl
  | cancel burst =>
    have hb : burst = [] := hr
    subst hb
    dsimp only at hs
    split at hs <;> cases hs
    show Inv3 { s with queue := [.stop], log := s.log ++ [.cancel] }
    have hst : stopping (s.log ++ [.cancel]) false = true := by rw [stopping_snoc]; rfl
    refine ⟨fun _ => ⟨[], rfl, by simp⟩, fun hf => ?_, silent_snoc h.silent (by simp)⟩
    rw [show ({ s with queue := [.stop], log := s.log ++ [.cancel] } : St).log = s.log ++ [.cancel] from rfl, hst] at hf
    cases hf
  | start =>
    dsimp only at hs
    split at hs <;> cases hs
    exact h.log (o := .start) (by simp) (by simp) (by simp) (.inl rfl) rfl
  | leave =>
    dsimp only at hs
    split at hs <;> cases hs
    exact ⟨h.yes, h.no, h.silent⟩
  | get =>
    dsimp only at hs
    split at hs <;> cases hs
    rename_i m q hth hq
    unfold iterate
    cases hst : stopping s.log false with
    | true =>
      obtain ⟨q', h1, h2⟩ := h.yes hst
      rw [hq] at h1
      obtain ⟨rfl, rfl⟩ := List.cons.inj h1
      have hst' : stopping (s.log ++ [.done SUCCESS]) false = false := by rw [stopping_snoc]; rfl
      refine ⟨fun hf => ?_, fun _ => h2, silent_snoc h.silent ⟨by simp, fun _ _ => hst⟩⟩
      have hf' : stopping (s.log ++ [.done SUCCESS]) false = true := hf
      rw [hst'] at hf'
      cases hf'
    | false =>
      have hno := h.no hst
      rw [hq] at hno
      cases m with
      | stop => simp at hno
      | ev n =>
        show Inv3 (if s.removed n then _ else _)
        have hq' : .stop ∉ q := fun hm => hno (by simp [hm])
        split
        · refine ⟨fun hf => ?_, fun _ => hq', h.silent⟩
          have hf' : stopping s.log false = true := hf
          rw [hst] at hf'
          cases hf'
        · have hst' : stopping (s.log ++ [.call n]) false = false := by rw [stopping_snoc]; exact hst
          refine ⟨fun hf => ?_, fun _ => hq', silent_snoc h.silent ⟨fun _ _ => hst, by simp⟩⟩
          have hf' : stopping (s.log ++ [.call n]) false = true := hf
          rw [hst'] at hf'
          cases hf'

theorem Reach.inv3 {r0 : Nat → Bool} {s : St} (h : Reach r0 Calm s) : Inv3 s := by
  induction h with
  | init => exact ⟨by simp [initial, stopping], by simp [initial], by simp [initial]⟩
  | step h hr hs ih => exact ih.step hr hs

theorem stopping_no_done (l : List Obs) (h : ∀ e, Obs.done e ∉ l) : stopping l true = true := by
  induction l with
  | nil => rfl
  | cons o l ih =>
    have := ih (fun e he => h e (by simp [he]))
    cases o with
    | done e => exact absurd (List.mem_cons_self) (h e)
    | _ => simpa [stopping] using this

theorem stopping_append (l k : List Obs) : ∀ c, stopping (l ++ k) c = stopping k (stopping l c) := by
  induction l with
  | nil => intro acc; rfl
  | cons x l ih => intro acc; cases x <;> exact ih _

theorem stopping_true (l : List Obs) : stopping l false = true → ∃ p mid, l = p ++ .cancel :: mid ∧ ∀ e, Obs.done e ∉ mid := by
  refine List.reverseRecOn l ?_ ?_
  · intro h; cases h
  · intro l o ih h
    rw [stopping_snoc] at h
    cases o with
    | cancel => exact ⟨l, [], rfl, by simp⟩
    | done e => cases h
    | _ =>
      obtain ⟨p, mid, e1, e2⟩ := ih h
      refine ⟨p, mid ++ [_], by rw [e1]; simp; rfl, ?_⟩
      intro e he
      simp at he
      exact e2 e he

/-! ### Theorems -/

/-- C48.  A callback is called only for an event that was queued, at most once for each, in the order of queueing; and never while the
notifier is removed.  For every use of the loop. -/
theorem dispatched_in_order {r0 : Nat → Bool} {s : St} (h : Reach r0 Any s) : (calls s.log).Sublist (adds s.log) ∧ NotRemoved r0 s.log :=
  ⟨(List.sublist_append_left _ _).trans h.inv.sub, h.inv.truth⟩

/-- C48.  As long as there is room in the queue nothing is lost: of the events queued since the last cancellation, those of notifiers
that were never removed were all called, in order, apart from those still waiting.  The thread of the loop is never blocked. -/
theorem nothing_lost_partial {r0 : Nat → Bool} {s : St} (h : Reach r0 Room s) (keep : Nat → Bool)
    (hk : ∀ n, keep n = true → r0 n = false ∧ NeverRemoved n s.log) :
    s.ub = false ∧ (∀ m b, s.thread ≠ .stuck m b) ∧
    (calls (sinceCancel s.log [])).filter keep <+: (adds (sinceCancel s.log [])).filter keep ∧
    (s.queue = [] → (calls (sinceCancel s.log [])).filter keep = (adds (sinceCancel s.log [])).filter keep) := by
  refine ⟨h.inv2.ub, h.inv2.free, ?_, ?_⟩
  · rw [h.inv2.kept keep hk, List.filter_append]
    exact List.prefix_append _ _
  · intro hq
    rw [h.inv2.kept keep hk, hq]
    simp [evs]

/-- C48.  The loop goes on as long as there are events: when it waits and the queue is not empty the next message is taken out. -/
theorem loop_goes_on {r0 : Nat → Bool} {s : St} (h : Reach r0 Room s) (hw : s.thread = .waiting) (hq : s.queue ≠ []) :
    ∃ s', step s .get = some s' ∧ s.queue = s'.queue.cons (s.queue.head hq) := by
  obtain ⟨m, q, e⟩ := List.exists_cons_of_ne_nil hq
  refine ⟨iterate { s with queue := q } m, ?_, ?_⟩
  · unfold step
    rw [if_neg (by rw [h.inv2.ub]; decide)]
    simp only [hw, e]
  · have : (iterate { s with queue := q } m).queue = q := by
      unfold iterate
      cases m with
      | stop => rfl
      | ev n => dsimp only; split <;> rfl
    simp only [this, e, List.head_cons]

/-- C48.  After `cio_eventloop_cancel` no callback is called until `cio_eventloop_run` has returned, it does return when it looks for the
next event, and it returns for no other reason: each return is preceded by a cancellation of its own. -/
theorem cancel_ends_loop_partial {r0 : Nat → Bool} {s : St} (h : Reach r0 Calm s) :
    (∀ p mid n post, s.log = p ++ .cancel :: mid ++ .call n :: post → ∃ e, .done e ∈ mid) ∧
    (∀ p e post, s.log = p ++ .done e :: post → ∃ q mid, p = q ++ .cancel :: mid ∧ ∀ e, .done e ∉ mid) ∧
    (∀ p mid, s.log = p ++ .cancel :: mid → (∀ e, .done e ∉ mid) → s.thread = .waiting → s.ub = false →
      ∃ s', step s .get = some s' ∧ s'.thread = .outside ∧ s'.log = s.log ++ [.done SUCCESS]) := by
  refine ⟨?_, ?_, ?_⟩
  · intro p mid n post hl
    by_cases hd : ∃ e, Obs.done e ∈ mid
    · exact hd
    · have h1 := (h.inv3.silent _ _ _ hl).1 n rfl
      have h2 : stopping (p ++ .cancel :: mid) false = true := by
        rw [stopping_append]
        exact stopping_no_done mid (fun e he => hd ⟨e, he⟩)
      rw [h1] at h2
      cases h2
  · intro p e post hl
    exact stopping_true p ((h.inv3.silent _ _ _ hl).2 e rfl)
  · intro p mid hl hd hw hub
    have h2 : stopping s.log false = true := by
      rw [hl, stopping_append]
      exact stopping_no_done mid hd
    obtain ⟨q, hq, -⟩ := h.inv3.yes h2
    refine ⟨iterate { s with queue := q } .stop, ?_, rfl, rfl⟩
    unfold step
    rw [if_neg (by rw [hub]; decide)]
    simp only [hw, hq]

/-! ### What does not hold -/

/-- A thread that waits for room in a full queue waits forever. -/
theorem stuck_forever {m : Msg} {b : Bool} (ms : List Move) : ∀ {s s' : St}, s.thread = .stuck m b → s.queue.length = queueSize →
    run s ms = some s' → s'.log = s.log ∧ s'.thread = .stuck m b := by
  induction ms with
  | nil => intro s s' ht _ hr; cases hr; exact ⟨rfl, ht⟩
  | cons x ms ih =>
    intro s s' ht hq hr
    rw [run, Option.bind_eq_some_iff] at hr
    obtain ⟨t, h1, h2⟩ := hr
    unfold step at h1
    by_cases hub : s.ub = true
    · rw [if_pos hub] at h1; cases h1
    rw [if_neg hub] at h1
    cases x with
    | irq n =>
      simp only [Option.some.injEq] at h1
      subst h1
      unfold irq at h2
      rw [if_neg (by omega)] at h2
      exact ih (s := { s with ub := true }) ht hq h2
    | _ => simp [ht, Thread.user] at h1

/-- The moves of a callback that queues events while the queue is full. -/
def overflow : List Move := [.init 0, .irq 0, .start, .get] ++ List.replicate 11 (.add 0)

/-- C48 does not hold without room in the queue: a callback that queues an eleventh event blocks the loop for ever. -/
theorem full_queue_blocks : ∃ s, run (initial fun _ => true) overflow = some s ∧ s.queue.length = 10 ∧
    ∀ ms s', run s ms = some s' → s'.log = s.log := by
  have e : ∃ s, run (initial fun _ => true) overflow = some s ∧ s.queue.length = 10 ∧ s.thread = .stuck (.ev 0) true := ⟨_, rfl, rfl, rfl⟩
  obtain ⟨s, h1, h2, h3⟩ := e
  exact ⟨s, h1, h2, fun ms s' hr => (stuck_forever ms h3 h2 hr).1⟩

/-- C48 does not hold when an interrupt happens in the middle of `cio_eventloop_cancel`: a callback is called after the cancellation. -/
theorem called_after_cancel : ∃ s, run (initial fun _ => false) [.start, .irq 0, .get, .cancel [1], .leave, .get] = some s ∧
    s.log = [.start, .add 0, .call 0, .cancel, .add 1, .call 1] := ⟨_, rfl, rfl⟩

/-! ### Examples -/

theorem reach_run {r0 : Nat → Bool} {rules : St → Move → Prop} (ms : List Move) : ∀ {s s' : St}, Reach r0 rules s →
    (∀ s m, m ∈ ms → rules s m) → run s ms = some s' → Reach r0 rules s' := by
  induction ms with
  | nil => intro s s' h _ hr; cases hr; exact h
  | cons x ms ih =>
    intro s s' h hk hr
    rw [run, Option.bind_eq_some_iff] at hr
    obtain ⟨t, h1, h2⟩ := hr
    exact ih (.step h (hk s x (by simp)) h1) (fun s m hm => hk s m (by simp [hm])) h2

/-- Two notifiers; the second is removed by the callback of the first, and the loop is cancelled by the third. -/
def exampleMoves : List Move :=
  [.init 1, .init 2, .init 3, .irq 1, .irq 2, .start, .get, .remove 2, .irq 3, .leave, .get, .get, .irq 1, .cancel [], .irq 1, .leave, .get]

example : ∃ s, run (initial fun _ => false) exampleMoves = some s ∧ Reach (fun _ => false) Calm s ∧ Reach (fun _ => false) Any s ∧
    calls s.log = [1, 3] ∧ adds s.log = [1, 2, 3, 1, 1] ∧ s.log.getLast? = some (.done SUCCESS) ∧ s.queue = [.ev 1] := by
  refine ⟨_, rfl, reach_run exampleMoves .init ?_ rfl, reach_run exampleMoves .init (fun _ _ _ => trivial) rfl, rfl, rfl, rfl, rfl⟩
  intro s m hm
  fin_cases hm <;> trivial

/-- Decidable version of `Room`. -/
def roomB (s : St) : Move → Bool
  | .irq _ | .add _ => decide (s.queue.length < queueSize)
  | .cancel burst => decide (burst.length < queueSize)
  | _ => true

/-- Run while there is room. -/
def runRoom : St → List Move → Option St
  | s, [] => some s
  | s, m :: ms => if roomB s m then (step s m).bind fun s => runRoom s ms else none

theorem reach_runRoom {r0 : Nat → Bool} (ms : List Move) : ∀ {s s' : St}, Reach r0 Room s → runRoom s ms = some s' → Reach r0 Room s' := by
  induction ms with
  | nil => intro s s' h hr; cases hr; exact h
  | cons x ms ih =>
    intro s s' h hr
    unfold runRoom at hr
    split at hr
    · rename_i hb
      rw [Option.bind_eq_some_iff] at hr
      obtain ⟨t, h1, h2⟩ := hr
      refine ih (.step h ?_ h1) h2
      cases x <;> simp_all [roomB, Room]
    · cases hr

example : ∃ s, Reach (fun _ => false) Room s ∧ calls s.log = [1, 3] ∧ s.queue = [.ev 1] :=
  ⟨_, reach_runRoom exampleMoves .init rfl, rfl, rfl⟩

end Cio.Zephyr.Loop
