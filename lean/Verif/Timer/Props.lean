import Verif.Timer.Model
import Mathlib.Tactic.ByContra
/-
Property theorems for timers (C30, C31).
-/
namespace Cio.Timer

/-! ### Conversion of timeouts (C31) -/

/-- C31.  Seconds and nanoseconds together are the requested time, the nanoseconds are a valid `tv_nsec`, and both are not negative as
signed numbers. -/
theorem timeout_converted (timeout : BitVec 64) :
    (convert timeout).1.toNat * 1000000000 + (convert timeout).2.toNat = timeout.toNat ∧
    (convert timeout).2.toNat < 1000000000 ∧ 0 ≤ (convert timeout).1.toInt ∧ 0 ≤ (convert timeout).2.toInt := by
  have h1 : (convert timeout).1.toNat = timeout.toNat / 1000000000 := by
    simp [convert, nsecondsInSeconds, BitVec.toNat_udiv]
  have hlt := timeout.isLt
  have h2 : (convert timeout).2.toNat = timeout.toNat % 1000000000 := by
    show (timeout - timeout / nsecondsInSeconds * nsecondsInSeconds).toNat = _
    rw [BitVec.toNat_sub, BitVec.toNat_mul, BitVec.toNat_udiv, show nsecondsInSeconds.toNat = 1000000000 from rfl]
    omega
  refine ⟨by rw [h1, h2]; omega, by rw [h2]; omega, ?_, ?_⟩
  · rw [BitVec.toInt_eq_toNat_of_lt (by rw [h1]; omega)]; omega
  · rw [BitVec.toInt_eq_toNat_of_lt (by rw [h2]; omega)]; omega

example : convert 1500000001#64 = (1#64, 500000001#64) := by decide

theorem convert_zero (timeout : BitVec 64) : ((convert timeout).1 = 0#64 ∧ (convert timeout).2 = 0#64) ↔ timeout = 0#64 := by
  have h := (timeout_converted timeout).1
  constructor
  · rintro ⟨h1, h2⟩
    rw [h1, h2] at h
    apply BitVec.eq_of_toNat_eq
    simpa using h.symm
  · rintro rfl
    decide

/-! ### Handlers (C30): specification -/

/-- How often the handler of arming `t` was called. -/
def calls (t : Nat) (l : List Obs) : Nat := l.countP fun o => match o with
  | .handler u _ => u = t
  | _ => false

/-- Every arming so far was answered: its handler was called. -/
def AllAnswered (l : List Obs) : Prop := ∀ t ok, .armed t ok ∈ l → calls t l = 1

/-- The rules of use under which the property holds: the timer is armed with a non-zero time and only when the handler of the last
arming was called; a handler that is told CIO_OPERATION_ABORTED does not call functions of the timer; and the operating system does
not fail. -/
def Rules (s : St) : Move → Prop
  | .arm timeout ok _ => timeout ≠ 0#64 ∧ ok = true ∧ AllAnswered s.log ∧ s.stack.head? ≠ some (.user true)
  | .cancel ok => ok = true ∧ s.stack.head? ≠ some (.user true)
  | .close ok => ok = true ∧ s.stack.head? ≠ some (.user true)
  | .event fail => fail = none
  | _ => True

/-- States reached by moves that keep to `rules`. -/
inductive Reach (rules : St → Move → Prop) : St → Prop
  | init : Reach rules initial
  | step {s s' : St} {m : Move} (h : Reach rules s) (hr : rules s m) (hs : step s m = some s') : Reach rules s'

/-- Handlers are told the truth: success only after the time of this very arming has passed, "aborted" only immediately after the user
cancelled or closed the timer. -/
def Truthful (l : List Obs) : Prop := ∀ p t e post, l = p ++ .handler t e :: post →
  (e = SUCCESS ∧ .expired t ∈ p) ∨ (e = OPERATION_ABORTED ∧ (p.getLast? = some (.cancel true) ∨ p.getLast? = some .close))

/-! ### Invariant -/

theorem calls_snoc (t : Nat) (l : List Obs) (o : Obs) : calls t (l ++ [o]) = calls t l + (match o with
    | .handler u _ => if u = t then 1 else 0
    | _ => 0) := by
  unfold calls
  rw [List.countP_append]
  cases o with
  | handler u e => by_cases h : u = t <;> simp [h]
  | _ => simp

theorem Truthful.snoc {l : List Obs} (h : Truthful l) {o : Obs} (ho : ∀ t e, o = .handler t e →
    (e = SUCCESS ∧ .expired t ∈ l) ∨ (e = OPERATION_ABORTED ∧ (l.getLast? = some (.cancel true) ∨ l.getLast? = some .close))) :
    Truthful (l ++ [o]) := by
  intro p t e post hl
  rcases List.append_eq_append_iff.mp hl with ⟨a, h1, h2⟩ | ⟨c, h1, h2⟩
  · cases a with
    | nil =>
      simp only [List.nil_append, List.append_nil, List.cons.injEq] at h1 h2
      subst h1
      exact ho t e h2.1
    | cons y ys => simp at h2
  · cases c with
    | nil =>
      simp only [List.nil_append, List.append_nil] at h1 h2
      simp only [List.cons.injEq] at h2
      subst h1
      exact ho t e h2.1.symm
    | cons y ys =>
      simp only [List.cons_append, List.cons.injEq] at h2
      obtain ⟨rfl, rfl⟩ := h2
      exact h p t e ys h1

/-- Shapes of the stack: whether a cancellation and whether a close is under way. -/
inductive Shape : List Item → Bool → Bool → Prop
  | users (k : List Item) (h : ∀ i ∈ k, i = .user false) : Shape k false false
  | closing (k : List Item) (h : ∀ i ∈ k, i = .user false) : Shape (.afterClose :: k) false true
  | aborted (k : List Item) (c : Bool) (h : Shape k false c) : Shape (.user true :: .afterCancel :: k) true c
  | cancelled (k : List Item) (c : Bool) (h : Shape k false c) : Shape (.afterCancel :: k) true c

structure Inv (s : St) (canc clos : Bool) : Prop where
  ub : s.ub = false
  shape : Shape s.stack canc clos
  arms : ∀ t ok, .armed t ok ∈ s.log ↔ t < s.next ∧ ok = true
  old : ∀ t < s.next, s.handler ≠ some t → calls t s.log = 1
  fresh : ∀ t, s.next ≤ t → calls t s.log = 0
  some_lt : ∀ t, s.handler = some t → t < s.next
  cancOnce : ∀ t, canc = true → s.handler = some t → calls t s.log = 1
  waiting : ∀ t, canc = false → s.handler = some t →
    calls t s.log = 0 ∧ (s.kern = .armed t ∨ (s.kern = .expired t ∧ .expired t ∈ s.log))
  idle : s.handler = none → s.kern = .idle ∧ canc = false
  idle' : canc = true → s.kern = .idle
  dead : s.alive = false → s.handler = none ∧ s.inLoop = false ∧ clos = false ∧ canc = false
  closing : clos = true → s.alive = true ∧ s.inLoop = false ∧ (canc = false → s.handler = none)
  open_ : clos = false → s.alive = true → s.inLoop = true
  truth : Truthful s.log

theorem opt {α : Type} (o : Option α) : o = none ∨ ∃ a, o = some a := by cases o <;> simp

theorem cancelCore_none {s : St} {ok : Bool} (h : s.handler = none) : Timer.cancelCore s ok = (s, false) := by
  unfold Timer.cancelCore
  rw [h]

theorem Shape.head {k : List Item} {i : Item} {c d : Bool} (h : Shape (i :: k) c d) (hi : i = .user false) :
    c = false ∧ d = false ∧ ∀ j ∈ k, j = .user false := by
  subst hi
  generalize hl : Item.user false :: k = l at h
  cases h with
  | users _ h => subst hl; exact ⟨rfl, rfl, fun j hj => h j (by simp [hj])⟩
  | closing => cases hl
  | aborted => cases hl
  | cancelled => cases hl

theorem Inv.arm {s : St} (h : Inv s false false) (ha : s.alive = true) (hhn : s.handler = none) (hk : ∀ i ∈ s.stack, i = .user false)
    (timeout : BitVec 64) (h0 : timeout ≠ 0#64) (soon : Bool) : Inv (arm s timeout true soon) false false := by
  have hset : ∀ s : St, settime s (convert timeout) s.next = { s with kern := .armed s.next } := by
    intro s
    unfold settime
    rw [if_neg (fun hc => h0 ((convert_zero timeout).mp hc))]
  have hset' : settime { s with handler := some s.next, next := s.next + 1, log := s.log ++ [.armed s.next true] } (convert timeout) s.next =
      { s with handler := some s.next, next := s.next + 1, log := s.log ++ [.armed s.next true], kern := .armed s.next } := by
    unfold settime
    rw [if_neg (fun hc => h0 ((convert_zero timeout).mp hc))]
  have hc1 : ∀ t, calls t (s.log ++ [.armed s.next true]) = calls t s.log := fun t => by rw [calls_snoc]; rfl
  unfold Timer.arm
  simp only [if_true, hset']
  cases soon with
  | false =>
    simp only [Bool.false_eq_true, if_false, timerRead]
    refine ⟨h.ub, h.shape, ?_, ?_, ?_, ?_, fun _ h => (by cases h), ?_, fun h => (by cases h), fun h => (by cases h), ?_, fun h => (by cases h), h.open_, ?_⟩
    · intro t ok
      simp only [List.mem_append, List.mem_singleton, h.arms]
      constructor
      · rintro (⟨h1, h2⟩ | h1)
        · exact ⟨by omega, h2⟩
        · injection h1 with h1 h2; exact ⟨by omega, h2⟩
      · rintro ⟨h1, h2⟩
        by_cases ht : t = s.next
        · exact .inr (by rw [ht, h2])
        · exact .inl ⟨by omega, h2⟩
    · intro t ht hne
      simp only at ht hne ⊢
      rw [hc1]
      exact h.old t (by
        have : t ≠ s.next := fun h => hne (by rw [h])
        omega) (by rw [hhn]; simp)
    · intro t ht
      simp only at ht ⊢
      rw [hc1]; exact h.fresh t (by omega)
    · intro t ht
      simp only [Option.some.injEq] at ht
      show t < s.next + 1
      omega
    · intro t _ ht
      simp only [Option.some.injEq] at ht
      subst ht
      refine ⟨?_, .inl rfl⟩
      simp only
      rw [hc1]; exact h.fresh _ (Nat.le_refl _)
    · intro hd; simp only at hd; rw [ha] at hd; cases hd
    · exact h.truth.snoc (fun t e h => by cases h)
  | true =>
    simp only [if_true, expire, Option.getD_some, timerRead]
    have hc2 : ∀ t, calls t (s.log ++ [.armed s.next true] ++ [.expired s.next] ++ [.handler s.next SUCCESS]) =
        calls t s.log + if s.next = t then 1 else 0 := fun t => by
      rw [calls_snoc, calls_snoc, calls_snoc]; rfl
    refine ⟨h.ub, .users _ ?_, ?_, ?_, ?_, fun _ h => (by cases h), fun _ h => (by cases h), fun _ _ h => (by cases h), fun _ => ⟨rfl, rfl⟩,
      fun _ => rfl, ?_, fun h => (by cases h), h.open_, ?_⟩
    · intro i hi
      simp only [List.mem_cons] at hi
      rcases hi with rfl | hi
      · rfl
      · exact hk i hi
    · intro t ok
      simp only [List.mem_append, List.mem_singleton, h.arms, reduceCtorEq, or_false]
      constructor
      · rintro (⟨h1, h2⟩ | h1)
        · exact ⟨by omega, h2⟩
        · injection h1 with h1 h2; exact ⟨by omega, h2⟩
      · rintro ⟨h1, h2⟩
        by_cases ht : t = s.next
        · exact .inr (by rw [ht, h2])
        · exact .inl ⟨by omega, h2⟩
    · intro t ht _
      simp only at ht ⊢
      rw [hc2]
      by_cases hts : s.next = t
      · rw [if_pos hts, ← hts, h.fresh _ (Nat.le_refl _)]
      · rw [if_neg hts]
        exact h.old t (by omega) (by rw [hhn]; simp)
    · intro t ht
      simp only at ht ⊢
      rw [hc2, if_neg (by omega)]
      exact h.fresh t (by omega)
    · intro hd; simp only at hd; rw [ha] at hd; cases hd
    · refine ((h.truth.snoc ?_).snoc ?_).snoc ?_
      · intro t e h; cases h
      · intro t e h; cases h
      · intro t e h
        injection h with h1 h2
        subst h1; subst h2
        exact .inl ⟨rfl, by simp⟩

/-- Pushes the call of the handler with CIO_OPERATION_ABORTED. -/
theorem Inv.cancelCore {s : St} {l : List Obs} {o : Obs} {t : Nat} {clos : Bool} (hl : s.log = l ++ [o]) (ho : o = .cancel true ∨ o = .close)
    (hub : s.ub = false) (hsh : Shape s.stack false clos)
    (harms : ∀ t ok, .armed t ok ∈ s.log ↔ t < s.next ∧ ok = true)
    (hold : ∀ t < s.next, s.handler ≠ some t → calls t s.log = 1)
    (hfresh : ∀ t, s.next ≤ t → calls t s.log = 0)
    (hlt : ∀ t, s.handler = some t → t < s.next)
    (hwait : calls t s.log = 0) (hh : s.handler = some t) (ha : s.alive = true)
    (hclos : clos = true → s.inLoop = false) (hopen : clos = false → s.inLoop = true) (htr : Truthful s.log) :
    Inv (cancelCore s true).1 true clos := by
  unfold Timer.cancelCore
  rw [hh]
  simp only [if_true, settime, and_self]
  have hc : ∀ u, calls u (s.log ++ [.handler t OPERATION_ABORTED]) = calls u s.log + if t = u then 1 else 0 := fun u => by rw [calls_snoc]
  refine ⟨hub, .aborted _ _ hsh, ?_, ?_, ?_, ?_, ?_, fun _ h => (by cases h), ?_, fun _ => rfl, ?_, ?_, fun h _ => hopen h, ?_⟩
  · intro u ok
    simp only [List.mem_append, List.mem_singleton, harms, reduceCtorEq, or_false]
  · intro u hu hne
    simp only at hu hne ⊢
    have : t ≠ u := fun h => hne (by rw [hh, h])
    rw [hc, if_neg this]
    exact hold u hu hne
  · intro u hu
    simp only at hu ⊢
    have := hlt t hh
    rw [hc, if_neg (by omega)]
    exact hfresh u hu
  · intro u hu
    exact hlt u hu
  · intro u _ hu
    simp only at hu ⊢
    rw [hh, Option.some.injEq] at hu
    rw [hc, if_pos hu, ← hu, hwait]
  · intro h; simp only at h; rw [hh] at h; cases h
  · intro h; simp only at h; rw [ha] at h; cases h
  · exact fun h => ⟨ha, hclos h, fun h => by cases h⟩
  · refine htr.snoc ?_
    intro u e h
    injection h with h1 h2
    subst h1; subst h2
    refine .inr ⟨rfl, ?_⟩
    rw [hl, List.getLast?_append, List.getLast?_singleton, Option.some_or]
    rcases ho with rfl | rfl
    · exact .inl rfl
    · exact .inr rfl

theorem step_inv {s s' : St} {m : Move} {canc clos : Bool} (h : Inv s canc clos) (hr : Rules s m) (hs : step s m = some s') :
    ∃ canc' clos', Inv s' canc' clos' := by
  unfold step at hs
  rw [if_neg (by rw [h.ub]; simp)] at hs
  split at hs
  · -- expire
    unfold expire at hs
    split at hs
    · rename_i t hk
      injection hs with hs
      subst hs
      have hcal : ∀ u, calls u (s.log ++ [.expired t]) = calls u s.log := fun u => by rw [calls_snoc]; rfl
      have hh : s.handler = some t ∧ canc = false := by
        cases hh : s.handler with
        | none => have := (h.idle hh).1; rw [hk] at this; cases this
        | some u =>
          cases canc with
          | true => have := h.idle' rfl; rw [hk] at this; cases this
          | false =>
            rcases (h.waiting u rfl hh).2 with h1 | h1
            · rw [hk] at h1; injection h1 with h1; exact ⟨by rw [h1], rfl⟩
            · rw [hk] at h1; cases h1.1
      obtain ⟨hh, rfl⟩ := hh
      refine ⟨false, clos, h.ub, h.shape, ?_, ?_, ?_, h.some_lt, fun _ h => (by cases h), ?_, ?_, fun h => (by cases h), h.dead, h.closing, h.open_, ?_⟩
      · intro u ok
        simp only [List.mem_append, List.mem_singleton, h.arms, reduceCtorEq, or_false]
      · intro u hu hne; simp only; rw [hcal]; exact h.old u hu hne
      · intro u hu; simp only; rw [hcal]; exact h.fresh u hu
      · intro u _ hu
        have hu' : u = t := by
          simp only at hu
          rw [hh] at hu; injection hu with hu; exact hu.symm
        subst hu'
        refine ⟨by simp only; rw [hcal]; exact (h.waiting u rfl hh).1, .inr ⟨rfl, by simp⟩⟩
      · intro hn; simp only at hn; rw [hh] at hn; cases hn
      · exact h.truth.snoc (fun t e h => by cases h)
    · cases hs
  · -- enter
    rename_i hst
    injection hs with hs
    subst hs
    have hcc : canc = false ∧ clos = false := by
      have := h.shape
      rw [hst] at this
      generalize hl : ([] : List Item) = l at this
      cases this with
      | users => exact ⟨rfl, rfl⟩
      | _ => cases hl
    obtain ⟨rfl, rfl⟩ := hcc
    exact ⟨false, false, h.ub, .users _ (by simp), h.arms, h.old, h.fresh, h.some_lt, h.cancOnce, h.waiting, h.idle, h.idle', h.dead, h.closing,
      h.open_, h.truth⟩
  · -- event
    rename_i fail hst
    have hcc : canc = false ∧ clos = false := by
      have := h.shape
      rw [hst] at this
      generalize hl : ([] : List Item) = l at this
      cases this with
      | users => exact ⟨rfl, rfl⟩
      | _ => cases hl
    obtain ⟨rfl, rfl⟩ := hcc
    split at hs
    · rename_i hin
      injection hs with hs
      subst hs
      have hf : fail = none := hr
      subst hf
      simp only [timerRead]
      split
      · rename_i t hk
        cases hh : s.handler with
        | none => have := (h.idle hh).1; rw [hk] at this; cases this
        | some u =>
          have hw := h.waiting u rfl hh
          have hu : u = t ∧ .expired t ∈ s.log := by
            rcases hw.2 with h1 | h1
            · rw [hk] at h1; cases h1
            · rw [hk] at h1; injection h1.1 with h2; subst h2; exact ⟨rfl, h1.2⟩
          obtain ⟨rfl, hex⟩ := hu
          have hcal : ∀ v, calls v (s.log ++ [.handler u SUCCESS]) = calls v s.log + if u = v then 1 else 0 := fun v => by rw [calls_snoc]
          refine ⟨false, false, h.ub, .users _ ?_, ?_, ?_, ?_, fun _ h => (by cases h), fun _ h => (by cases h), fun _ _ h => (by cases h),
            fun _ => ⟨rfl, rfl⟩, fun h => (by cases h), ?_, fun h => (by cases h), h.open_, ?_⟩
          · simp [hst]
          · intro v ok
            simp only [List.mem_append, List.mem_singleton, h.arms, reduceCtorEq, or_false]
          · intro v hv _
            simp only at hv ⊢
            rw [hcal]
            by_cases huv : u = v
            · rw [if_pos huv, ← huv, hw.1]
            · rw [if_neg huv]
              exact h.old v hv (by rw [hh]; simpa using huv)
          · intro v hv
            simp only at hv ⊢
            have := h.some_lt u hh
            rw [hcal, if_neg (by omega)]
            exact h.fresh v hv
          · intro hd; simp only at hd; have := (h.dead hd).1; rw [hh] at this; cases this
          · refine h.truth.snoc ?_
            intro v e hv
            injection hv with h1 h2
            subst h1; subst h2
            exact .inl ⟨rfl, hex⟩
      · exact ⟨false, false, h⟩
    · cases hs
  · -- leave
    rename_i b k hst
    injection hs with hs
    subst hs
    have hsh : Shape k canc clos := by
      have := h.shape
      rw [hst] at this
      generalize hl : Item.user b :: k = l at this
      cases this with
      | users _ hu => subst hl; exact .users _ (fun i hi => hu i (by simp [hi]))
      | closing => cases hl
      | aborted k' _ hk => injection hl with _ hl; subst hl; exact .cancelled k' _ hk
      | cancelled => cases hl
    exact ⟨canc, clos, h.ub, hsh, h.arms, h.old, h.fresh, h.some_lt, h.cancOnce, h.waiting, h.idle, h.idle', h.dead, h.closing, h.open_, h.truth⟩
  · -- arm
    rename_i timeout ok soon b k hst
    split at hs
    · rename_i ha
      injection hs with hs
      subst hs
      obtain ⟨h0, rfl, hans, htop⟩ := hr
      have hb : b = false := by
        rw [hst] at htop
        cases b
        · rfl
        · simp at htop
      subst hb
      have hsh := h.shape
      rw [hst] at hsh
      obtain ⟨rfl, rfl, hus⟩ := hsh.head rfl
      have hhn : s.handler = none := by
        cases hh : s.handler with
        | none => rfl
        | some t =>
          have h1 := (h.waiting t rfl hh).1
          have h2 := hans t true ((h.arms t true).mpr ⟨h.some_lt t hh, rfl⟩)
          omega
      refine ⟨false, false, h.arm ha hhn ?_ timeout h0 soon⟩
      rw [hst]
      intro i hi
      simp only [List.mem_cons] at hi
      rcases hi with rfl | hi
      · rfl
      · exact hus i hi
    · cases hs
  · -- cancel
    rename_i ok b k hst
    split at hs
    · rename_i ha
      injection hs with hs
      subst hs
      obtain ⟨rfl, htop⟩ := hr
      have hb : b = false := by
        rw [hst] at htop
        cases b
        · rfl
        · simp at htop
      subst hb
      have hsh := h.shape
      rw [hst] at hsh
      obtain ⟨rfl, rfl, hus⟩ := hsh.head rfl
      unfold cancel
      rcases opt s.handler with hh | ⟨t, hh⟩
      · rw [cancelCore_none hh]
        simp only
        rw [cancelCore_none (s := { s with log := s.log ++ [.cancel false] }) hh]
        have hcal : ∀ v, calls v (s.log ++ [.cancel false]) = calls v s.log := fun v => by rw [calls_snoc]; rfl
        refine ⟨false, false, h.ub, h.shape, ?_, ?_, ?_, h.some_lt, fun _ h => (by cases h), ?_, h.idle, h.idle', h.dead, h.closing, h.open_, ?_⟩
        · intro v ok
          simp only [List.mem_append, List.mem_singleton, h.arms, reduceCtorEq, or_false]
        · intro v hv hne; simp only; rw [hcal]; exact h.old v hv hne
        · intro v hv; simp only; rw [hcal]; exact h.fresh v hv
        · intro v _ hv; simp only at hv; rw [hh] at hv; cases hv
        · exact h.truth.snoc (fun t e h => by cases h)
      · have hr : (cancelCore s true).2 = true := by simp [cancelCore, hh]
        simp only [hr]
        have hcal : ∀ v, calls v (s.log ++ [.cancel true]) = calls v s.log := fun v => by rw [calls_snoc]; rfl
        refine ⟨true, false, Inv.cancelCore (l := s.log) (o := .cancel true) (t := t) rfl (.inl rfl) h.ub h.shape ?_ ?_ ?_ h.some_lt ?_ hh ha (fun h => (by cases h))
          (fun _ => h.open_ rfl ha) ?_⟩
        · intro v ok
          simp only [List.mem_append, List.mem_singleton, h.arms, reduceCtorEq, or_false]
        · intro v hv hne; simp only; rw [hcal]; exact h.old v hv hne
        · intro v hv; simp only; rw [hcal]; exact h.fresh v hv
        · simp only; rw [hcal]; exact (h.waiting t rfl hh).1
        · exact h.truth.snoc (fun t e h => by cases h)
    · cases hs
  · -- close
    rename_i ok b k hst
    split at hs
    · rename_i ha
      rw [Bool.and_eq_true] at ha
      injection hs with hs
      subst hs
      obtain ⟨rfl, htop⟩ := hr
      have hb : b = false := by
        rw [hst] at htop
        cases b
        · rfl
        · simp at htop
      subst hb
      have hsh := h.shape
      rw [hst] at hsh
      obtain ⟨rfl, rfl, hus⟩ := hsh.head rfl
      have hus' : ∀ i ∈ s.stack, i = .user false := by
        rw [hst]
        intro i hi
        simp only [List.mem_cons] at hi
        rcases hi with rfl | hi
        · rfl
        · exact hus i hi
      unfold close
      simp only
      have hcal : ∀ v, calls v (s.log ++ [.close]) = calls v s.log := fun v => by rw [calls_snoc]; rfl
      rcases opt s.handler with hh | ⟨t, hh⟩
      · rw [cancelCore_none (s := { s with log := s.log ++ [.close], inLoop := false, stack := .afterClose :: s.stack }) hh]
        refine ⟨false, true, h.ub, .closing _ hus', ?_, ?_, ?_, h.some_lt, fun _ h => (by cases h), ?_, h.idle, h.idle', ?_, fun _ => ⟨ha.1, rfl, fun _ => hh⟩, fun h => (by cases h), ?_⟩
        · intro v ok
          simp only [List.mem_append, List.mem_singleton, h.arms, reduceCtorEq, or_false]
        · intro v hv hne; simp only; rw [hcal]; exact h.old v hv hne
        · intro v hv; simp only; rw [hcal]; exact h.fresh v hv
        · intro v _ hv; simp only at hv; rw [hh] at hv; cases hv
        · intro hd; simp only at hd; rw [ha.1] at hd; cases hd
        · exact h.truth.snoc (fun t e h => by cases h)
      · refine ⟨true, true, Inv.cancelCore (l := s.log) (o := .close) (t := t) rfl (.inr rfl) h.ub (.closing _ hus') ?_ ?_ ?_ h.some_lt ?_ hh ha.1 (fun _ => rfl)
          (fun h => (by cases h)) ?_⟩
        · intro v ok
          simp only [List.mem_append, List.mem_singleton, h.arms, reduceCtorEq, or_false]
        · intro v hv hne; simp only; rw [hcal]; exact h.old v hv hne
        · intro v hv; simp only; rw [hcal]; exact h.fresh v hv
        · simp only; rw [hcal]; exact (h.waiting t rfl hh).1
        · exact h.truth.snoc (fun t e h => by cases h)
    · cases hs
  · -- afterCancel
    rename_i k hst
    have hsh : canc = true ∧ Shape k false clos := by
      have := h.shape
      rw [hst] at this
      generalize hl : Item.afterCancel :: k = l at this
      cases this with
      | users _ hu => subst hl; exact absurd (hu .afterCancel (by simp)) (by simp)
      | closing => cases hl
      | aborted => cases hl
      | cancelled k' c hk => injection hl with _ hl; subst hl; exact ⟨rfl, hk⟩
    obtain ⟨rfl, hsh⟩ := hsh
    have ha : s.alive = true := by
      cases hd : s.alive with
      | true => rfl
      | false => have := (h.dead hd).2.2.2; cases this
    rw [if_pos ha] at hs
    injection hs with hs
    subst hs
    refine ⟨false, clos, h.ub, hsh, h.arms, ?_, h.fresh, fun _ h => (by cases h), fun _ h => (by cases h), fun _ _ h => (by cases h),
      fun _ => ⟨h.idle' rfl, rfl⟩, fun h => (by cases h), ?_, fun hc => ⟨ha, (h.closing hc).2.1, fun _ => rfl⟩, h.open_, h.truth⟩
    · intro t ht _
      by_cases hh : s.handler = some t
      · exact h.cancOnce t rfl hh
      · exact h.old t ht hh
    · intro hd; simp only at hd; rw [ha] at hd; cases hd
  · -- afterClose
    rename_i k hst
    have hsh : canc = false ∧ clos = true ∧ ∀ i ∈ k, i = .user false := by
      have := h.shape
      rw [hst] at this
      generalize hl : Item.afterClose :: k = l at this
      cases this with
      | users _ hu => subst hl; exact absurd (hu .afterClose (by simp)) (by simp)
      | closing k' hk => injection hl with _ hl; subst hl; exact ⟨rfl, rfl, hk⟩
      | aborted => cases hl
      | cancelled => cases hl
    obtain ⟨rfl, rfl, hus⟩ := hsh
    obtain ⟨ha, hin, hnone⟩ := h.closing rfl
    rw [if_pos ha] at hs
    injection hs with hs
    subst hs
    have hn := hnone rfl
    have hcal : ∀ v, calls v (s.log ++ [.hook]) = calls v s.log := fun v => by rw [calls_snoc]; rfl
    refine ⟨false, false, h.ub, .users _ hus, ?_, ?_, ?_, h.some_lt, fun _ h => (by cases h), ?_, h.idle, fun h => (by cases h),
      fun _ => ⟨hn, hin, rfl, rfl⟩, fun h => (by cases h), fun _ h => (by cases h), ?_⟩
    · intro v ok
      simp only [List.mem_append, List.mem_singleton, h.arms, reduceCtorEq, or_false]
    · intro v hv hne; simp only; rw [hcal]; exact h.old v hv hne
    · intro v hv; simp only; rw [hcal]; exact h.fresh v hv
    · intro v _ hv; simp only at hv; rw [hn] at hv; cases hv
    · exact h.truth.snoc (fun t e h => by cases h)
  · cases hs

theorem reach_inv {s : St} (h : Reach Rules s) : ∃ canc clos, Inv s canc clos := by
  induction h with
  | init =>
    refine ⟨false, false, rfl, .users _ (by simp [initial]), ?_, ?_, ?_, ?_, ?_, ?_, fun _ => ⟨rfl, rfl⟩, fun h => (by cases h), ?_,
      fun h => (by cases h), fun _ _ => rfl, ?_⟩
    · intro t ok; simp [initial]
    · intro t ht; simp [initial] at ht
    · intro t _; rfl
    · intro t ht; simp [initial] at ht
    · intro t _ ht; simp [initial] at ht
    · intro t _ ht; simp [initial] at ht
    · intro h; simp [initial] at h
    · intro p t e post hl; simp [initial] at hl
  | step _ hr hs ih =>
    obtain ⟨c, d, h⟩ := ih
    exact step_inv h hr hs

/-! ### Properties -/

/-- C30 (within the rules of use `Rules`): the handler of an arming is called at most once, it is told the truth, and the library never
touches a timer that was closed or calls a handler that is not there. -/
theorem handler_at_most_once_partial {s : St} (h : Reach Rules s) :
    (∀ t, calls t s.log ≤ 1) ∧ Truthful s.log ∧ s.ub = false := by
  obtain ⟨canc, clos, h⟩ := reach_inv h
  refine ⟨fun t => ?_, h.truth, h.ub⟩
  by_cases ht : t < s.next
  · by_cases hh : s.handler = some t
    · cases canc with
      | true => have := h.cancOnce t rfl hh; omega
      | false => have := (h.waiting t rfl hh).1; omega
    · have := h.old t ht hh; omega
  · have := h.fresh t (by omega); omega

/-- C30 (within the rules of use): no arming is forgotten.  Whenever the program is back in the event loop, the handler of each arming
was called, or the timer is still running (or has expired) for it and is watched by the event loop. -/
theorem arming_not_forgotten_partial {s : St} (h : Reach Rules s) (hidle : s.stack = []) (t : Nat) (ok : Bool) (ht : .armed t ok ∈ s.log) :
    calls t s.log = 1 ∨ (calls t s.log = 0 ∧ (s.kern = .armed t ∨ s.kern = .expired t) ∧ s.inLoop = true ∧ s.alive = true) := by
  obtain ⟨canc, clos, h⟩ := reach_inv h
  have hsh := h.shape
  rw [hidle] at hsh
  have hcc : canc = false ∧ clos = false := by
    generalize hl : ([] : List Item) = l at hsh
    cases hsh with
    | users => exact ⟨rfl, rfl⟩
    | _ => cases hl
  obtain ⟨rfl, rfl⟩ := hcc
  by_cases hh : s.handler = some t
  · refine .inr ⟨(h.waiting t rfl hh).1, ?_⟩
    have ha : s.alive = true := by
      cases hd : s.alive with
      | true => rfl
      | false => have := (h.dead hd).1; rw [hh] at this; cases this
    refine ⟨?_, h.open_ rfl ha, ha⟩
    rcases (h.waiting t rfl hh).2 with h1 | h1
    · exact .inl h1
    · exact .inr h1.1
  · exact .inl (h.old t ((h.arms t ok).mp ht).1 hh)

/-- C30: an expired timer that is dispatched by the event loop calls its handler with success. -/
theorem expired_is_reported {s : St} {t : Nat} (h : Reach Rules s) (hidle : s.stack = []) (hk : s.kern = .expired t) :
    ∃ s', step s (.event none) = some s' ∧ s'.log = s.log ++ [.handler t SUCCESS] := by
  obtain ⟨canc, clos, h⟩ := reach_inv h
  have hsh := h.shape
  rw [hidle] at hsh
  have hcc : canc = false ∧ clos = false := by
    generalize hl : ([] : List Item) = l at hsh
    cases hsh with
    | users => exact ⟨rfl, rfl⟩
    | _ => cases hl
  obtain ⟨rfl, rfl⟩ := hcc
  have hh : s.handler = some t := by
    cases hh : s.handler with
    | none => have := (h.idle hh).1; rw [hk] at this; cases this
    | some u =>
      rcases (h.waiting u rfl hh).2 with h1 | h1
      · rw [hk] at h1; cases h1
      · rw [hk] at h1; injection h1.1 with h1; rw [h1]
  have ha : s.alive = true := by
    cases hd : s.alive with
    | true => rfl
    | false => have := (h.dead hd).1; rw [hh] at this; cases this
  refine ⟨timerRead s none, ?_, ?_⟩
  · unfold step
    rw [if_neg (by rw [h.ub]; simp), hidle]
    simp only
    rw [if_pos (h.open_ rfl ha)]
  · simp only [timerRead, hk, hh]

/-- C30 (within the rules of use): what `cio_timer_cancel` returns is what happened: it succeeds exactly if the handler of an arming has not been
called yet, and then calls it; otherwise nothing happens. -/
theorem cancel_result_partial {s s' : St} {ok : Bool} (h : Reach Rules s) (hr : Rules s (.cancel ok)) (hs : step s (.cancel ok) = some s') :
    (AllAnswered s.log ∧ s'.log = s.log ++ [.cancel false] ∧ s'.stack = s.stack) ∨
    (∃ t, .armed t true ∈ s.log ∧ calls t s.log = 0 ∧ s'.log = s.log ++ [.cancel true, .handler t OPERATION_ABORTED]) := by
  obtain ⟨canc, clos, h⟩ := reach_inv h
  obtain ⟨rfl, hh⟩ := hr
  unfold step at hs
  rw [if_neg (by rw [h.ub]; simp)] at hs
  rcases hst : s.stack with _ | ⟨i, k⟩
  · rw [hst] at hs; cases hs
  · cases i with
    | user b =>
      rw [hst] at hh hs
      have hb : b = false := by cases b with
        | false => rfl
        | true => exact absurd rfl hh
      subst hb
      dsimp only at hs
      split at hs
      · injection hs with hs; subst hs
        have hsh := h.shape
        rw [hst] at hsh
        have hcc := hsh.head rfl
        obtain ⟨rfl, rfl⟩ : canc = false ∧ clos = false := ⟨hcc.1, hcc.2.1⟩
        unfold cancel
        dsimp only
        rcases opt s.handler with hn | ⟨t, hn⟩
        · left
          rw [cancelCore_none hn, cancelCore_none (s := { s with log := s.log ++ [.cancel (s, false).2] }) hn]
          refine ⟨fun t ok ht => h.old t ((h.arms t ok).mp ht).1 (by rw [hn]; simp), rfl, ?_⟩
          show s.stack = _
          exact hst
        · right
          refine ⟨t, (h.arms t true).mpr ⟨h.some_lt t hn, rfl⟩, (h.waiting t rfl hn).1, ?_⟩
          simp [cancelCore, hn, settime]
      · cases hs
    | afterCancel => rw [hst] at hs; cases hs
    | afterClose => rw [hst] at hs; cases hs

/-- Both cases occur. -/
example : (run initial [.enter, .arm 5#64 true false, .cancel true, .leave, .continue, .cancel true]).map (fun s => s.log) =
    some [.armed 0 true, .cancel true, .handler 0 OPERATION_ABORTED, .cancel false] := by decide

/-- C30 (within the rules of use): when the close hook was called, the handlers of all armings have been called. -/
theorem closed_all_answered_partial {s : St} (h : Reach Rules s) (hc : s.alive = false) : AllAnswered s.log := by
  obtain ⟨canc, clos, h⟩ := reach_inv h
  intro t ok ht
  exact h.old t ((h.arms t ok).mp ht).1 (by rw [(h.dead hc).1]; simp)

/-- The close hook is called (the object may be freed) as the last thing of `cio_timer_close`. -/
theorem closed_after_hook {s : St} (h : Reach (fun _ _ => True) s) : s.alive = false → .hook ∈ s.log := by
  have hmono : ∀ (s : St) (fail : Option Err), (∀ o ∈ s.log, o ∈ (timerRead s fail).log) ∧ (timerRead s fail).alive = s.alive := by
    intro s fail
    unfold timerRead
    split
    · split <;> simp +contextual
    · split
      · split <;> simp +contextual
      · simp
  have hcc : ∀ (s : St) (ok : Bool), (∀ o ∈ s.log, o ∈ (cancelCore s ok).1.log) ∧ (cancelCore s ok).1.alive = s.alive := by
    intro s ok
    unfold cancelCore
    split
    · simp
    · split <;> simp +contextual [settime]
  induction h with
  | init => intro h; simp [initial] at h
  | step hre _ hs ih =>
    unfold step at hs
    split at hs
    · cases hs
    · split at hs
      · unfold expire at hs
        split at hs
        · injection hs with hs; subst hs
          intro h; simp [ih h]
        · cases hs
      · injection hs with hs; subst hs; exact ih
      · split at hs
        · injection hs with hs; subst hs
          intro h
          rw [(hmono _ _).2] at h
          exact (hmono _ _).1 _ (ih h)
        · cases hs
      · injection hs with hs; subst hs; exact ih
      · split at hs
        · rename_i ha
          injection hs with hs; subst hs
          intro h
          exfalso
          unfold arm at h
          simp only at h
          split at h
          · rw [(hmono _ _).2] at h
            split at h
            · unfold expire settime at h
              split at h <;> simp [ha] at h
            · simp [settime, ha] at h
          · simp [ha] at h
        · cases hs
      · split at hs
        · rename_i ha
          injection hs with hs; subst hs
          intro h
          unfold cancel at h
          simp only [(hcc _ _).2, ha] at h
          cases h
        · cases hs
      · split at hs
        · rename_i ha
          rw [Bool.and_eq_true] at ha
          injection hs with hs; subst hs
          intro h
          unfold close at h
          simp only [(hcc _ _).2, ha.1] at h
          cases h
        · cases hs
      · injection hs with hs; subst hs
        split
        · exact ih
        · exact ih
      · injection hs with hs; subst hs
        split
        · intro _; simp
        · exact ih
      · cases hs

/-! ### Non-vacuity -/

/-- Arm, expire, be told; arm again in the handler; cancel; arm, close. -/
def exampleMoves : List Move :=
  [.enter, .arm 5#64 true false, .leave, .event none, .expire, .event none, .arm 7#64 true false, .leave, .enter, .cancel true, .leave, .continue,
   .arm 9#64 true true, .arm 9#64 true false, .leave, .close true, .leave, .continue, .continue, .leave]

example : (run initial exampleMoves).map (fun s => (s.alive, s.stack, s.log)) = some (false, [],
    [.armed 0 true, .expired 0, .handler 0 SUCCESS, .armed 1 true, .cancel true, .handler 1 OPERATION_ABORTED,
     .armed 2 true, .expired 2, .handler 2 SUCCESS, .armed 3 true, .close, .handler 3 OPERATION_ABORTED, .hook]) := by decide

instance (l : List Obs) : Decidable (AllAnswered l) :=
  decidable_of_iff ((l.all fun o => match o with | .armed t _ => calls t l == 1 | _ => true) = true) (by
    unfold AllAnswered
    rw [List.all_eq_true]
    constructor
    · intro h t ok hm
      simpa using h _ hm
    · intro h o ho
      cases o with
      | armed t ok => simpa using h t ok ho
      | _ => rfl)

instance (s : St) (m : Move) : Decidable (Rules s m) := by
  cases m <;> unfold Rules <;> infer_instance

/-- Runs moves and checks the rules on the way. -/
def runRules : St → List Move → Option St
  | s, [] => some s
  | s, m :: ms => if Rules s m then (step s m).bind fun s => runRules s ms else none

theorem runRules_reach {s s' : St} {ms : List Move} (h : Reach Rules s) (hr : runRules s ms = some s') : Reach Rules s' := by
  induction ms generalizing s with
  | nil => simp only [runRules, Option.some.injEq] at hr; exact hr ▸ h
  | cons m ms ih =>
    simp only [runRules] at hr
    split at hr
    · rename_i hrule
      cases hs : step s m with
      | none => rw [hs] at hr; cases hr
      | some s1 => rw [hs] at hr; exact ih (.step h hrule hs) hr
    · cases hr

example : (runRules initial exampleMoves).isSome = true := by decide

/-! ### What happens outside of the rules: negations of the unrestricted property -/

/-- A timer armed with a zero timeout never expires: `timerfd_settime` takes a zero time as a request to disarm the timer.  No event
loop iteration and no time that passes ever leads to a call of the handler. -/
theorem zero_timeout_never_expires (ms : List Move) (hms : ∀ m ∈ ms, m = .expire ∨ m = .event none ∨ m = .leave ∨ m = .enter) (s : St)
    (h : run initial ([.enter, .arm 0#64 true true, .leave] ++ ms) = some s) : .armed 0 true ∈ s.log ∧ calls 0 s.log = 0 := by
  have h1 : run initial ([.enter, .arm 0#64 true true, .leave] ++ ms) =
      run { initial with handler := some 0, next := 1, log := [.armed 0 true] } ms := rfl
  rw [h1] at h
  have quiet : ∀ (s0 s1 : St) (m : Move), (m = .expire ∨ m = .event none ∨ m = .leave ∨ m = .enter) → s0.kern = .idle →
      step s0 m = some s1 → s1.kern = .idle ∧ s1.log = s0.log := by
    intro s0 s1 m hm hk hst
    unfold step at hst
    cases hub : s0.ub with
    | true => rw [hub] at hst; cases hst
    | false =>
      rw [hub] at hst
      rcases hm with rfl | rfl | rfl | rfl
      · simp [expire, hk] at hst
      · cases hstk : s0.stack with
        | nil =>
          cases hl : s0.inLoop with
          | false => simp [hstk, hl] at hst
          | true =>
            simp [hstk, hl, timerRead, hk] at hst
            subst hst; exact ⟨hk, rfl⟩
        | cons i k => simp [hstk] at hst
      · cases hstk : s0.stack with
        | nil => simp [hstk] at hst
        | cons i k =>
          cases i with
          | user b => simp [hstk] at hst; subst hst; exact ⟨hk, rfl⟩
          | afterCancel => simp [hstk] at hst
          | afterClose => simp [hstk] at hst
      · cases hstk : s0.stack with
        | nil => simp [hstk] at hst; subst hst; exact ⟨hk, rfl⟩
        | cons i k => simp [hstk] at hst
  have key : ∀ (ms : List Move) (s0 : St), (∀ m ∈ ms, m = .expire ∨ m = .event none ∨ m = .leave ∨ m = .enter) → s0.kern = .idle →
      s0.log = [.armed 0 true] → ∀ s, run s0 ms = some s → s.log = [.armed 0 true] := by
    intro ms
    induction ms with
    | nil =>
      intro s0 _ _ hl s hs
      simp only [run, Option.some.injEq] at hs
      rw [← hs]; exact hl
    | cons m ms ih =>
      intro s0 hm hk hl s hs
      simp only [run] at hs
      cases hst : step s0 m with
      | none => rw [hst] at hs; cases hs
      | some s1 =>
        rw [hst] at hs
        have hq := quiet s0 s1 m (hm m (by simp)) hk hst
        exact ih s1 (fun x hx => hm x (by simp [hx])) hq.1 (by rw [hq.2, hl]) s hs
  have := key ms _ hms rfl rfl s h
  rw [this]
  exact ⟨by simp, by decide⟩

/-- Arming an armed timer again replaces the handler: the first one is never called, not even when the timer is closed. -/
theorem rearm_forgets_handler : ∃ s, run initial [.enter, .arm 5#64 true false, .arm 6#64 true false, .leave, .expire, .event none, .leave,
    .enter, .close true, .continue, .leave] = some s ∧ s.alive = false ∧ .armed 0 true ∈ s.log ∧ calls 0 s.log = 0 :=
  ⟨_, rfl, by decide, by decide, by decide⟩

/-- A handler that is told "aborted" by `cio_timer_cancel` and arms the timer again: the new handler is wiped out, and when the timer
expires a null pointer is called. -/
theorem rearm_in_aborted_handler_crashes : ∃ s, run initial [.enter, .arm 5#64 true false, .cancel true, .arm 6#64 true false, .leave,
    .continue, .leave, .expire, .event none] = some s ∧ s.ub = true := ⟨_, rfl, by decide⟩

/-- A handler that is told "aborted" by `cio_timer_cancel` and closes the timer is called a second time, and the memory of the closed
timer is written to. -/
theorem close_in_aborted_handler : ∃ s, run initial [.enter, .arm 5#64 true false, .cancel true, .close true, .leave, .continue, .continue,
    .leave, .continue] = some s ∧ calls 0 s.log = 2 ∧ .hook ∈ s.log ∧ s.ub = true := ⟨_, rfl, by decide, by decide, by decide⟩

/-- If arming fails, the handler is called nevertheless when the timer is closed. -/
theorem failed_arming_is_answered : ∃ s, run initial [.enter, .arm 5#64 false false, .close true] = some s ∧
    .armed 0 false ∈ s.log ∧ calls 0 s.log = 1 := ⟨_, rfl, by decide, by decide⟩

/-- If reading the timer fails the handler is told, but stays set and is called again. -/
theorem read_error_called_twice : ∃ s, run initial [.enter, .arm 5#64 true false, .leave, .expire, .event (some (-5)), .leave,
    .event none] = some s ∧ calls 0 s.log = 2 := ⟨_, rfl, by decide⟩

end Cio.Timer
