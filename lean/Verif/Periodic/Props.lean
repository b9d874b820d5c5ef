import Verif.Periodic.Model
import Verif.Timer.Props
/-
Property theorems for the example program periodic_timer.c (C103).
-/
namespace Cio.Periodic

/-! ### Specification -/

/-- The times of the messages: the first one not before `p` nanoseconds after the start, each of the others at least `p` nanoseconds
after the one before. -/
def Spaced (p : Nat) (l : List Nat) : Prop := (0 :: l).Pairwise fun a b => a + p ≤ b

/-- The operating system fails in this step. -/
def Fails : Act → Prop
  | .first ok _ | .handle ok _ => ok = false
  | .event fail => fail ≠ none
  | _ => False

/-! ### The timer functions as this program calls them -/

theorem settime_nonzero {s : Timer.St} {p : BitVec 64} (hp : p ≠ 0#64) (t : Nat) :
    Timer.settime s (Timer.convert p) t = { s with kern := .armed t } := by
  unfold Timer.settime
  rw [if_neg (fun hc => hp ((Timer.convert_zero p).mp hc))]

theorem arm_later {s : Timer.St} {p : BitVec 64} (hp : p ≠ 0#64) :
    Timer.arm s p true false =
      { s with handler := some s.next, next := s.next + 1, log := s.log ++ [.armed s.next true], kern := .armed s.next } := by
  unfold Timer.arm
  simp only [settime_nonzero hp, if_true, Timer.timerRead]
  simp

theorem arm_soon {s : Timer.St} {p : BitVec 64} (hp : p ≠ 0#64) :
    Timer.arm s p true true =
      { s with handler := none, next := s.next + 1, kern := .idle, stack := .user false :: s.stack
               log := s.log ++ [.armed s.next true, .expired s.next, .handler s.next SUCCESS] } := by
  unfold Timer.arm
  simp [settime_nonzero hp, Timer.timerRead, Timer.expire]

theorem arm_fails {s : Timer.St} {p : BitVec 64} {b : Bool} :
    Timer.arm s p false b = { s with handler := some s.next, next := s.next + 1, log := s.log ++ [.armed s.next false] } := by
  unfold Timer.arm
  simp

theorem called_append (l m : List Timer.Obs) : called l (l ++ m) = called [] m := by
  unfold called
  rw [List.drop_left]
  rfl

theorem called_self (l : List Timer.Obs) : called l l = none := by
  simp [called]

/-! ### Invariant -/

/-- What holds while the program is not done: the number of messages, and their distance from `due`. -/
structure Open (c : Cfg) (s : St) : Prop where
  count : s.expirations.toNat = s.prints.length
  le : s.prints.length ≤ c.max.toNat
  gap : ∀ a ∈ 0 :: s.prints, a + c.period.toNat ≤ s.due
  alive : s.timer.alive = true
  inLoop : s.timer.inLoop = true
  users : ∀ i ∈ s.timer.stack, i = .user false
  phase : s.phase ≠ .start

/-- `handle_timeout` is not running, or it was called with an error. -/
def Quiet (failed : Bool) (s : St) : Prop :=
  s.pending = none ∨ ∃ e, e ≠ SUCCESS ∧ s.pending = some e ∧ failed = true

inductive Mode (c : Cfg) (failed : Bool) (s : St) : Prop
  | start (hp : s.phase = .start) (ht : s.timer = Timer.initial) (hq : s.pending = none) (he : s.expirations = 0#8) (hl : s.prints = [])
  | armed (o : Open c s) (hq : Quiet failed s) (hh : s.timer.handler.isSome = true)
      (hk : (∃ t, s.timer.kern = .armed t) ∨ (∃ t, s.timer.kern = .expired t) ∧ s.due ≤ s.now)
  | fired (o : Open c s) (hq : s.pending = some SUCCESS) (hh : s.timer.handler = none) (hk : s.timer.kern = .idle) (hd : s.due ≤ s.now)
  | dead (o : Open c s) (hq : Quiet failed s) (hf : failed = true) (hh : s.timer.handler.isSome = true) (hk : s.timer.kern = .idle)
  | done (hn : s.prints.length = c.max.toNat + 1) (hq : s.pending = none) (hi : s.timer.inLoop = false) (hh : s.timer.handler = none)
      (hk : s.timer.kern = .idle) (hc : s.cancelled = true) (hp : s.phase ≠ .start)
      (hs : ((∀ i ∈ s.timer.stack, i = .user false) ∧ s.timer.alive = false) ∨
        ∃ k, s.timer.stack = .afterClose :: k ∧ s.timer.alive = true ∧ ∀ i ∈ k, i = .user false)

structure Inv (c : Cfg) (failed : Bool) (s : St) : Prop where
  ub : s.timer.ub = false
  spaced : Spaced c.period.toNat s.prints
  past : ∀ a ∈ 0 :: s.prints, a ≤ s.now
  mode : Mode c failed s

theorem Spaced.snoc {p : Nat} {l : List Nat} (h : Spaced p l) {x : Nat} (hx : ∀ a ∈ 0 :: l, a + p ≤ x) : Spaced p (l ++ [x]) := by
  unfold Spaced at *
  rw [← List.cons_append, List.pairwise_append]
  refine ⟨h, by simp, ?_⟩
  intro a ha b hb
  simp at hb
  subst hb
  exact hx a ha

theorem inv_initial (c : Cfg) : Inv c false initial :=
  ⟨rfl, by simp [Spaced, initial], by simp [initial], .start rfl rfl rfl rfl rfl⟩

/-- Arming, by `main` or by the handler. -/
theorem inv_arm {c : Cfg} (hp : c.period ≠ 0#64) {f : Bool} {s : St} {ok : Bool} {d : Nat}
    (hub : s.timer.ub = false) (hsp : Spaced c.period.toNat s.prints) (hpast : ∀ a ∈ 0 :: s.prints, a ≤ s.now)
    (hcount : s.expirations.toNat = s.prints.length) (hle : s.prints.length ≤ c.max.toNat)
    (halive : s.timer.alive = true) (hin : s.timer.inLoop = true) (hus : ∀ i ∈ s.timer.stack, i = .user false)
    (hk : s.timer.kern = .idle) (ph : Phase) (hph : ph ≠ .start) :
    Inv c (f || !ok) { arm c s ok d with phase := ph } := by
  have hgap : ∀ a ∈ 0 :: s.prints, a + c.period.toNat ≤ s.now + c.period.toNat := fun a ha => by
    have := hpast a ha
    omega
  have hpast' : ∀ a ∈ 0 :: s.prints, a ≤ s.now + d := fun a ha => by
    have := hpast a ha
    omega
  cases ok with
  | false =>
    unfold arm
    rw [arm_fails]
    refine ⟨hub, hsp, hpast', .dead ⟨hcount, hle, hgap, halive, hin, hus, hph⟩ (.inl ?_) (by simp) rfl hk⟩
    simp [withTimer, called_append, called]
  | true =>
    by_cases hd : c.period.toNat ≤ d
    · unfold arm
      rw [decide_eq_true hd, arm_soon hp]
      refine ⟨hub, hsp, hpast', .fired ⟨hcount, hle, hgap, halive, hin, ?_, hph⟩ ?_ rfl rfl (by simp; omega)⟩
      · intro i hi
        simp [withTimer] at hi
        rcases hi with hi | hi
        · exact hi
        · exact hus i hi
      · simp [withTimer, called_append, called]
    · unfold arm
      rw [decide_eq_false hd, arm_later hp]
      refine ⟨hub, hsp, hpast', .armed ⟨hcount, hle, hgap, halive, hin, hus, hph⟩ (.inl ?_) rfl (.inl ⟨_, rfl⟩)⟩
      simp [withTimer, called_append, called]

theorem Quiet.mono {f g : Bool} {s : St} (h : Quiet f s) (hfg : f = true → g = true) : Quiet g s := by
  rcases h with h | ⟨e, h1, h2, h3⟩
  · exact .inl h
  · exact .inr ⟨e, h1, h2, hfg h3⟩

theorem step_inv {c : Cfg} (hp : c.period ≠ 0#64) {f g : Bool} {s s' : St} {a : Act} (h : Inv c f s) (hs : step c s a = some s')
    (hfg : f = true → g = true) (hg : Fails a → g = true) : Inv c g s' := by
  obtain ⟨hub, hsp, hpast, hm⟩ := h
  have up : ∀ x : Nat, s.now ≤ x → ∀ a ∈ 0 :: s.prints, a ≤ x := fun x hx a ha => Nat.le_trans (hpast a ha) hx
  cases a with
  | tick d =>
    simp only [step] at hs
    split at hs
    · cases hs
    · cases hs
      refine ⟨hub, hsp, up _ (Nat.le_add_right _ _), ?_⟩
      cases hm with
      | start h1 h2 h3 h4 h5 => exact .start h1 h2 h3 h4 h5
      | armed o hq hh hk => exact .armed ⟨o.count, o.le, o.gap, o.alive, o.inLoop, o.users, o.phase⟩ (hq.mono hfg) hh (hk.imp id (fun h => ⟨h.1, Nat.le_trans h.2 (Nat.le_add_right _ _)⟩))
      | fired o hq hh hk hd => exact .fired ⟨o.count, o.le, o.gap, o.alive, o.inLoop, o.users, o.phase⟩ hq hh hk (Nat.le_trans hd (Nat.le_add_right _ _))
      | dead o hq hf hh hk => exact .dead ⟨o.count, o.le, o.gap, o.alive, o.inLoop, o.users, o.phase⟩ (hq.mono hfg) (hfg hf) hh hk
      | done hn hq hi hh hk hc hp hst => exact .done hn hq hi hh hk hc hp hst
  | signal =>
    simp only [step] at hs
    cases hs
    refine ⟨hub, hsp, hpast, ?_⟩
    cases hm with
    | start h1 h2 h3 h4 h5 => exact .start h1 h2 h3 h4 h5
    | armed o hq hh hk => exact .armed ⟨o.count, o.le, o.gap, o.alive, o.inLoop, o.users, o.phase⟩ (hq.mono hfg) hh hk
    | fired o hq hh hk hd => exact .fired ⟨o.count, o.le, o.gap, o.alive, o.inLoop, o.users, o.phase⟩ hq hh hk hd
    | dead o hq hf hh hk => exact .dead ⟨o.count, o.le, o.gap, o.alive, o.inLoop, o.users, o.phase⟩ (hq.mono hfg) (hfg hf) hh hk
    | done hn hq hi hh hk hc hp hst => exact .done hn hq hi hh hk rfl hp hst
  | stop =>
    simp only [step] at hs
    split at hs
    · rename_i hrun
      cases hs
      refine ⟨hub, hsp, hpast, ?_⟩
      have hph : Phase.ended ≠ .start := by decide
      cases hm with
      | start h1 => rw [h1] at hrun; cases hrun.1
      | armed o hq hh hk => exact .armed ⟨o.count, o.le, o.gap, o.alive, o.inLoop, o.users, hph⟩ (hq.mono hfg) hh hk
      | fired o hq hh hk hd => exact .fired ⟨o.count, o.le, o.gap, o.alive, o.inLoop, o.users, hph⟩ hq hh hk hd
      | dead o hq hf hh hk => exact .dead ⟨o.count, o.le, o.gap, o.alive, o.inLoop, o.users, hph⟩ (hq.mono hfg) (hfg hf) hh hk
      | done hn hq hi hh hk hc hp hst => exact .done hn hq hi hh hk hc hph hst
    · cases hs
  | first ok d =>
    simp only [step] at hs
    split at hs
    · rename_i hst
      cases hs
      have hgg : (f || !ok) = true → g = true := by
        intro hx
        cases ok with
        | true => exact hfg (by simpa using hx)
        | false => exact hg rfl
      cases hm with
      | start h1 h2 h3 h4 h5 =>
        have := inv_arm hp (f := f) (ok := ok) (d := d) (s := { s with timer := { s.timer with stack := [.user false] } }) hub hsp hpast
          (by simp [h4, h5]) (by simp [h5]) (by simp [h2, Timer.initial]) (by simp [h2, Timer.initial]) (by simp)
          (by simp [h2, Timer.initial]) (if ok then .running else .ended) (by split <;> decide)
        generalize hz : ({ arm c { s with timer := { s.timer with stack := [.user false] } } ok d with phase := if ok then .running else .ended } : St) = z at this ⊢
        obtain ⟨a1, a2, a3, a4⟩ := this
        refine ⟨a1, a2, a3, ?_⟩
        cases a4 with
        | start h1 h2 h3 h4 h5 => exact .start h1 h2 h3 h4 h5
        | armed o hq hh hk => exact .armed o (hq.mono hgg) hh hk
        | fired o hq hh hk hd => exact .fired o hq hh hk hd
        | dead o hq hf hh hk => exact .dead o (hq.mono hgg) (hgg hf) hh hk
        | done hn hq hi hh hk hc hp hst => exact .done hn hq hi hh hk hc hp hst
      | armed o => exact absurd hst o.phase
      | fired o => exact absurd hst o.phase
      | dead o => exact absurd hst o.phase
      | done _ _ _ _ _ _ hp => exact absurd hst hp
    · cases hs
  | expire =>
    simp only [step] at hs
    split at hs
    · rename_i hc
      unfold Timer.expire at hs
      cases hm with
      | start h1 => rw [h1] at hc; cases hc.1
      | armed o hq hh hk =>
        rcases hk with ⟨t, hk⟩ | ⟨⟨t, hk⟩, _⟩
        · rw [hk] at hs
          cases hs
          exact ⟨hub, hsp, hpast, .armed ⟨o.count, o.le, o.gap, o.alive, o.inLoop, o.users, o.phase⟩ (hq.mono hfg) hh (.inr ⟨⟨t, rfl⟩, hc.2⟩)⟩
        · rw [hk] at hs; cases hs
      | fired o hq hh hk hd => rw [hk] at hs; cases hs
      | dead o hq hf hh hk => rw [hk] at hs; cases hs
      | done hn hq hi hh hk hc hp hst => rw [hk] at hs; cases hs
    · cases hs
  | event fail =>
    simp only [step] at hs
    split at hs
    · rename_i hc
      unfold Timer.step at hs
      rw [if_neg (by rw [hub]; simp)] at hs
      cases hstk : s.timer.stack with
      | cons i k => rw [hstk] at hs; cases hs
      | nil =>
        rw [hstk] at hs
        simp only at hs
        have hopen : ∀ (o : Open c s), ∀ t : Timer.St, t.alive = s.timer.alive → t.inLoop = s.timer.inLoop → (∀ i ∈ t.stack, i = .user false) →
            Open c (withTimer s t) := fun o t h1 h2 h3 =>
          ⟨o.count, o.le, o.gap, by rw [← o.alive, ← h1]; rfl, by rw [← o.inLoop, ← h2]; rfl, h3, o.phase⟩
        cases hm with
        | start h1 => rw [h1] at hc; cases hc.1
        | fired o hq => rw [hc.2.1] at hq; cases hq
        | done hn hq hi hh hk hc hp hst => rw [hi] at hs; simp at hs
        | armed o hq hh hk =>
          rw [o.inLoop] at hs
          obtain ⟨h0, hh0⟩ := Option.isSome_iff_exists.mp hh
          cases fail with
          | some e =>
            have hg' : g = true := hg (by simp [Fails])
            simp only [if_true, Timer.timerRead, hh0, Option.map_some, Option.some.injEq] at hs
            subst hs
            refine ⟨hub, hsp, hpast, .armed (hopen o _ rfl rfl (by simp [hstk])) (.inr ⟨e, fun h => hc.2.2 (by rw [h]), ?_, hg'⟩) rfl hk⟩
            simp [withTimer, called_append, called]
          | none =>
            rcases hk with ⟨t, hk⟩ | ⟨⟨t, hk⟩, hd⟩
            · simp only [if_true, Timer.timerRead, hk, Option.map_some, Option.some.injEq] at hs
              subst hs
              refine ⟨hub, hsp, hpast, .armed (hopen o _ rfl rfl (by simp [hstk])) (.inl ?_) hh (.inl ⟨t, hk⟩)⟩
              simp [withTimer, called_self]
            · simp only [if_true, Timer.timerRead, hk, hh0, Option.map_some, Option.some.injEq] at hs
              subst hs
              refine ⟨hub, hsp, hpast, .fired (hopen o _ rfl rfl (by simp [hstk])) ?_ rfl rfl hd⟩
              simp [withTimer, called_append, called]
        | dead o hq hf hh hk =>
          rw [o.inLoop] at hs
          obtain ⟨h0, hh0⟩ := Option.isSome_iff_exists.mp hh
          cases fail with
          | some e =>
            simp only [if_true, Timer.timerRead, hh0, Option.map_some, Option.some.injEq] at hs
            subst hs
            refine ⟨hub, hsp, hpast, .dead (hopen o _ rfl rfl (by simp [hstk])) (.inr ⟨e, fun h => hc.2.2 (by rw [h]), ?_, hfg hf⟩) (hfg hf) rfl hk⟩
            simp [withTimer, called_append, called]
          | none =>
            simp only [if_true, Timer.timerRead, hk, Option.map_some, Option.some.injEq] at hs
            subst hs
            refine ⟨hub, hsp, hpast, .dead (hopen o _ rfl rfl (by simp [hstk])) (.inl ?_) (hfg hf) hh hk⟩
            simp [withTimer, called_self]
    · cases hs
  | leave =>
    simp only [step] at hs
    split at hs
    · unfold Timer.step at hs
      rw [if_neg (by rw [hub]; simp)] at hs
      cases hstk : s.timer.stack with
      | nil => rw [hstk] at hs; cases hs
      | cons i k =>
        rw [hstk] at hs
        cases i with
        | afterCancel => cases hs
        | afterClose => cases hs
        | user b =>
          simp only [Option.map_some, Option.some.injEq] at hs
          subst hs
          refine ⟨hub, hsp, hpast, ?_⟩
          have hsub : (∀ i ∈ s.timer.stack, i = Timer.Item.user false) → ∀ i ∈ k, i = Timer.Item.user false := fun h i hi =>
            h i (by rw [hstk]; simp [hi])
          cases hm with
          | start h1 h2 => rw [h2] at hstk; cases hstk
          | armed o hq hh hk => exact .armed ⟨o.count, o.le, o.gap, o.alive, o.inLoop, hsub o.users, o.phase⟩ (hq.mono hfg) hh hk
          | fired o hq hh hk hd => exact .fired ⟨o.count, o.le, o.gap, o.alive, o.inLoop, hsub o.users, o.phase⟩ hq hh hk hd
          | dead o hq hf hh hk => exact .dead ⟨o.count, o.le, o.gap, o.alive, o.inLoop, hsub o.users, o.phase⟩ (hq.mono hfg) (hfg hf) hh hk
          | done hn hq hi hh hk hc hp hst =>
            refine .done hn hq hi hh hk hc hp (.inl ?_)
            rcases hst with ⟨h, hal⟩ | ⟨k', h, _⟩
            · exact ⟨hsub h, hal⟩
            · rw [hstk] at h; cases h
    · cases hs
  | close =>
    simp only [step] at hs
    split at hs
    · rename_i hcc
      unfold Timer.step at hs
      rw [if_neg (by rw [hub]; simp)] at hs
      have hno : (∀ i ∈ s.timer.stack, i = Timer.Item.user false) → False := fun h => by
        cases hstk : s.timer.stack with
        | nil => rw [hstk] at hs; cases hs
        | cons i k =>
          have := h i (by rw [hstk]; simp)
          subst this
          rw [hstk] at hs
          cases hs
      cases hm with
      | start h1 h2 => exact (hno (by rw [h2]; simp [Timer.initial])).elim
      | armed o => exact (hno o.users).elim
      | fired o => exact (hno o.users).elim
      | dead o => exact (hno o.users).elim
      | done hn hq hi hh hk hc hp hst =>
        rcases hst with h | ⟨k, h1, h2, h3⟩
        · exact (hno h.1).elim
        · rw [h1] at hs
          simp only [h2, if_true, Option.map_some, Option.some.injEq] at hs
          subst hs
          refine ⟨hub, hsp, hpast, .done hn ?_ hi hh hk hc hp (.inl ⟨h3, rfl⟩)⟩
          simp [withTimer, called_append, called]
    · cases hs
  | handle ok d =>
    simp only [step] at hs
    cases hpend : s.pending with
    | none => rw [hpend] at hs; cases hs
    | some e =>
      rw [hpend] at hs
      simp only at hs
      split at hs
      · rename_i hph
        cases hs
        unfold handleTimeout
        by_cases he : e = SUCCESS
        · rw [if_pos he]
          subst he
          cases hm with
          | start h1 => rw [h1] at hph; cases hph
          | armed o hq =>
            rcases hq with hq | ⟨e, h1, h2, _⟩
            · rw [hpend] at hq; cases hq
            · rw [hpend] at h2; cases h2; exact absurd rfl h1
          | dead o hq =>
            rcases hq with hq | ⟨e, h1, h2, _⟩
            · rw [hpend] at hq; cases hq
            · rw [hpend] at h2; cases h2; exact absurd rfl h1
          | done hn hq => rw [hpend] at hq; cases hq
          | fired o hq hh hk hd =>
            have hsp' : Spaced c.period.toNat (s.prints ++ [s.now]) := hsp.snoc fun a ha => Nat.le_trans (o.gap a ha) hd
            have hpast' : ∀ a ∈ 0 :: (s.prints ++ [s.now]), a ≤ s.now := by
              intro a ha
              rw [← List.cons_append, List.mem_append] at ha
              rcases ha with ha | ha
              · exact hpast a ha
              · simp at ha; omega
            have hcnt := o.count
            by_cases hlt : s.expirations < c.max
            · have hlt' : s.expirations.toNat < c.max.toNat := hlt
              have hmx := c.max.isLt
              have hinc : (s.expirations + 1#8).toNat = s.expirations.toNat + 1 := by
                rw [BitVec.toNat_add]
                simp
                omega
              have hgg : (f || !ok) = true → g = true := by
                intro hx
                cases ok with
                | true => exact hfg (by simpa using hx)
                | false => exact hg rfl
              have := inv_arm hp (f := f) (ok := ok) (d := d)
                (s := { s with prints := s.prints ++ [s.now], expirations := s.expirations + 1#8 }) hub hsp' hpast'
                (by simp only [hinc, List.length_append, List.length_singleton]; omega)
                (by simp only [List.length_append, List.length_singleton]; omega) o.alive o.inLoop o.users hk s.phase o.phase
              simp only [if_pos hlt]
              obtain ⟨a1, a2, a3, a4⟩ := this
              refine ⟨a1, a2, a3, ?_⟩
              cases a4 with
              | start h1 h2 h3 h4 h5 => exact .start h1 h2 h3 h4 h5
              | armed o hq hh hk => exact .armed ⟨o.count, o.le, o.gap, o.alive, o.inLoop, o.users, o.phase⟩ (hq.mono hgg) hh hk
              | fired o hq hh hk hd => exact .fired ⟨o.count, o.le, o.gap, o.alive, o.inLoop, o.users, o.phase⟩ hq hh hk hd
              | dead o hq hf hh hk => exact .dead ⟨o.count, o.le, o.gap, o.alive, o.inLoop, o.users, o.phase⟩ (hq.mono hgg) (hgg hf) hh hk
              | done hn hq hi hh hk hc hp hst => exact .done hn hq hi hh hk hc hp hst
            · have hlt' : ¬ s.expirations.toNat < c.max.toNat := hlt
              simp only [if_neg hlt]
              have hcl : Timer.close s.timer true =
                  { s.timer with log := s.timer.log ++ [.close], inLoop := false, stack := .afterClose :: s.timer.stack } := by
                unfold Timer.close
                simp only [Timer.cancelCore_none (s := { s.timer with log := s.timer.log ++ [.close], inLoop := false, stack := .afterClose :: s.timer.stack }) hh]
              have hle := o.le
              refine ⟨?_, hsp', hpast', .done ?_ ?_ ?_ ?_ ?_ rfl o.phase (.inr ⟨s.timer.stack, ?_, ?_, o.users⟩)⟩
              · simp [withTimer, hcl, hub]
              · simp only [withTimer, List.length_append, List.length_singleton]; omega
              · simp [withTimer, hcl, called_append, called]
              · simp [withTimer, hcl]
              · simp [withTimer, hcl, hh]
              · simp [withTimer, hcl, hk]
              · simp [withTimer, hcl]
              · simp [withTimer, hcl, o.alive]
        · rw [if_neg he]
          refine ⟨hub, hsp, hpast, ?_⟩
          cases hm with
          | start h1 => rw [h1] at hph; cases hph
          | armed o hq hh hk => exact .armed ⟨o.count, o.le, o.gap, o.alive, o.inLoop, o.users, o.phase⟩ (.inl rfl) hh hk
          | fired o hq => rw [hpend] at hq; cases hq; exact absurd rfl he
          | dead o hq hf hh hk => exact .dead ⟨o.count, o.le, o.gap, o.alive, o.inLoop, o.users, o.phase⟩ (.inl rfl) (hfg hf) hh hk
          | done hn hq => rw [hpend] at hq; cases hq
      · cases hs

theorem run_inv {c : Cfg} (hp : c.period ≠ 0#64) {as : List Act} {f g : Bool} {s s' : St} (h : Inv c f s) (hr : run c s as = some s')
    (hfg : f = true → g = true) (hg : (∃ a ∈ as, Fails a) → g = true) : Inv c g s' := by
  induction as generalizing f s with
  | nil =>
    cases hr
    obtain ⟨a1, a2, a3, a4⟩ := h
    refine ⟨a1, a2, a3, ?_⟩
    cases a4 with
    | start h1 h2 h3 h4 h5 => exact .start h1 h2 h3 h4 h5
    | armed o hq hh hk => exact .armed o (hq.mono hfg) hh hk
    | fired o hq hh hk hd => exact .fired o hq hh hk hd
    | dead o hq hf hh hk => exact .dead o (hq.mono hfg) (hfg hf) hh hk
    | done hn hq hi hh hk hc hp hst => exact .done hn hq hi hh hk hc hp hst
  | cons a as ih =>
    simp only [run] at hr
    cases hs : step c s a with
    | none => rw [hs] at hr; cases hr
    | some s1 =>
      rw [hs] at hr
      exact ih (step_inv hp h hs hfg fun hf => hg ⟨a, by simp, hf⟩) hr id fun ⟨b, hb, hf⟩ => hg ⟨b, by simp [hb], hf⟩

/-! ### The theorems -/

/-- C103.  Whatever the operating system does, "timer expired!" is printed at most `MAX_EXPIRATIONS + 1` times; the first message comes
at least `FIVE_S` after the start and each other one at least `FIVE_S` after the one before; and the program never calls a handler that
is not there or touches a closed timer. -/
theorem messages_spaced {c : Cfg} (hp : c.period ≠ 0#64) {as : List Act} {s : St} (hr : run c initial as = some s) :
    s.prints.length ≤ c.max.toNat + 1 ∧ Spaced c.period.toNat s.prints ∧ (∀ x ∈ s.prints, x ≤ s.now) ∧ s.timer.ub = false := by
  obtain ⟨h1, h2, h3, h4⟩ := run_inv hp (g := true) (inv_initial c) hr (by simp) (by simp)
  refine ⟨?_, h2, fun x hx => h3 x (by simp [hx]), h1⟩
  cases h4 with
  | start _ _ _ _ h5 => simp [h5]
  | armed o => have := o.le; omega
  | fired o => have := o.le; omega
  | dead o => have := o.le; omega
  | done hn => omega

/-- C103.  After the last message the timer is closed and the event loop is told to stop. -/
theorem last_message_ends {c : Cfg} (hp : c.period ≠ 0#64) {as : List Act} {s : St} (hr : run c initial as = some s)
    (hn : s.prints.length = c.max.toNat + 1) : s.cancelled = true ∧ s.timer.inLoop = false ∧ s.timer.kern = .idle := by
  obtain ⟨h1, h2, h3, h4⟩ := run_inv hp (g := true) (inv_initial c) hr (by simp) (by simp)
  cases h4 with
  | start _ _ _ _ h5 => rw [h5] at hn; simp at hn
  | armed o => have := o.le; omega
  | fired o => have := o.le; omega
  | dead o => have := o.le; omega
  | done _ _ hi _ hk hc => exact ⟨hc, hi, hk⟩

end Cio.Periodic
