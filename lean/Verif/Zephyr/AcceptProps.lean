import Verif.Zephyr.AcceptModel
/-
Property theorems for the server sockets of the Zephyr port (C51).
-/
namespace Cio.Zephyr.Accept

/-! ### Specification -/

/-- How often connection `c` was handed to the user. -/
def handedOut (c : Nat) (l : List Obs) : Nat := l.countP fun o => match o with
  | .handed d => d = c
  | _ => false

/-- How often connection `c` was given back to the network stack. -/
def givenBack (c : Nat) (l : List Obs) : Nat := l.countP fun o => match o with
  | .dropped d => d = c
  | _ => false

/-- The network stack reports a connection or a failure. -/
def isReport : Obs → Bool
  | .arrived _ | .failed _ => true
  | _ => false

/-- The accept handler is called. -/
def isCall : Obs → Bool
  | .handed _ | .error _ => true
  | _ => false

/-- The last report of the network stack. -/
def lastReport (l : List Obs) : Option Obs := (l.filter isReport).getLast?

/-- What the accept handler may be told, and which connection may be given back, after `p`: it is about the last report. -/
def Fits (p : List Obs) : Obs → Prop
  | .handed c => lastReport p = some (.arrived c)
  | .error e => lastReport p = some (.failed e) ∨ (e = NO_MEMORY ∧ ∃ c, lastReport p = some (.arrived c))
  | .dropped c => lastReport p = some (.arrived c)
  | _ => True

/-- Handlers are told the truth. -/
def Truthful (l : List Obs) : Prop := ∀ p o post, l = p ++ o :: post → Fits p o

/-- The rules under which the property holds: a connection arrives (or a failure is reported) only when the one before is dealt with, and
the server socket is closed neither between the arrival of a connection and the call of the handler nor by a handler that is told of a
lack of memory. -/
def Rules (s : St) : Move → Prop
  | .arrive | .fail _ | .close => s.queued = 0 ∧ .afterNoMemory ∉ s.stack
  | _ => True

/-- States reached by moves that keep to `rules`. -/
inductive Reach (rules : St → Move → Prop) : St → Prop
  | init : Reach rules initial
  | step {s s' : St} {m : Move} (h : Reach rules s) (hr : rules s m) (hs : step s m = some s') : Reach rules s'

/-! ### Invariant -/

theorem handedOut_snoc (c : Nat) (l : List Obs) (o : Obs) : handedOut c (l ++ [o]) = handedOut c l + (match o with
    | .handed d => if d = c then 1 else 0
    | _ => 0) := by
  unfold handedOut
  rw [List.countP_append]
  cases o with
  | handed u => by_cases h : u = c <;> simp [h]
  | _ => simp

theorem givenBack_snoc (c : Nat) (l : List Obs) (o : Obs) : givenBack c (l ++ [o]) = givenBack c l + (match o with
    | .dropped d => if d = c then 1 else 0
    | _ => 0) := by
  unfold givenBack
  rw [List.countP_append]
  cases o with
  | dropped u => by_cases h : u = c <;> simp [h]
  | _ => simp

/-- Connections dealt with. -/
def total (c : Nat) (l : List Obs) : Nat := handedOut c l + givenBack c l

theorem total_snoc (c : Nat) (l : List Obs) (o : Obs) : total c (l ++ [o]) = total c l + (match o with
    | .handed d | .dropped d => if d = c then 1 else 0
    | _ => 0) := by
  unfold total
  rw [handedOut_snoc, givenBack_snoc]
  cases o <;> simp <;> omega

/-- The history; `cur` is the connection that is not dealt with yet. -/
structure Hist (next : Nat) (l : List Obs) (cur : Option Nat) : Prop where
  arrived : ∀ c, .arrived c ∈ l ↔ c < next
  old : ∀ c, c < next → cur ≠ some c → total c l = 1
  new : ∀ c, next ≤ c → total c l = 0
  cur : ∀ c, cur = some c → c < next ∧ total c l = 0

theorem Hist.other {next : Nat} {l : List Obs} {cur : Option Nat} (h : Hist next l cur) {o : Obs} (h1 : ∀ c, o ≠ .arrived c) (h2 : ∀ c, o ≠ .handed c)
    (h3 : ∀ c, o ≠ .dropped c) : Hist next (l ++ [o]) cur := by
  have ht : ∀ c, total c (l ++ [o]) = total c l := by
    intro c
    rw [total_snoc]
    cases o with
    | handed d => exact absurd rfl (h2 d)
    | dropped d => exact absurd rfl (h3 d)
    | _ => rfl
  refine ⟨fun c => ?_, fun c hc hn => by rw [ht]; exact h.old c hc hn, fun c hc => by rw [ht]; exact h.new c hc,
    fun c hc => ⟨(h.cur c hc).1, by rw [ht]; exact (h.cur c hc).2⟩⟩
  rw [List.mem_append, List.mem_singleton, h.arrived]
  exact or_iff_left (fun e => h1 c e.symm)

theorem Hist.arrive {next : Nat} {l : List Obs} (h : Hist next l none) : Hist (next + 1) (l ++ [.arrived next]) (some next) := by
  have ht : ∀ c, total c (l ++ [.arrived next]) = total c l := fun c => by rw [total_snoc]; rfl
  refine ⟨fun c => ?_, fun c hc hn => ?_, fun c hc => by rw [ht]; exact h.new c (by omega), fun c hc => ?_⟩
  · rw [List.mem_append, List.mem_singleton, h.arrived]; simp; omega
  · have : c ≠ next := fun e => hn (by rw [e])
    rw [ht]
    exact h.old c (by omega) (by simp)
  · injection hc with hc
    subst hc
    exact ⟨by omega, by rw [ht]; exact h.new _ (by omega)⟩

theorem Hist.deal {next d : Nat} {l : List Obs} (h : Hist next l (some d)) {o : Obs} (ho : o = .handed d ∨ o = .dropped d) :
    Hist next (l ++ [o]) none := by
  have ht : ∀ c, total c (l ++ [o]) = total c l + if d = c then 1 else 0 := by
    intro c; rw [total_snoc]; rcases ho with rfl | rfl <;> rfl
  obtain ⟨hlt, h0⟩ := h.cur d rfl
  refine ⟨fun c => ?_, fun c hc _ => ?_, fun c hc => ?_, by simp⟩
  · rw [List.mem_append, List.mem_singleton, h.arrived]
    rcases ho with rfl | rfl <;> simp
  · rw [ht]
    by_cases hd : d = c
    · rw [if_pos hd, ← hd, h0]
    · rw [if_neg hd]; exact h.old c hc (by simpa using hd)
  · rw [ht, if_neg (by omega)]; exact h.new c hc

/-- Where the connection is. -/
inductive Phase (s : St) : Option Nat → Prop
  | idle (h : s.queued = 0 ∧ (s.stack = [] ∨ s.stack = [.user])) : Phase s none
  | error (h : s.queued = 1 ∧ s.acceptStatus ≠ SUCCESS ∧ lastReport s.log = some (.failed s.acceptStatus) ∧ s.alive = true ∧ (s.stack = [] ∨ s.stack = [.user])) : Phase s none
  | waiting (c : Nat) (h : s.queued = 1 ∧ s.acceptStatus = SUCCESS ∧ s.newContext = some c ∧ lastReport s.log = some (.arrived c) ∧ s.alive = true ∧ (s.stack = [] ∨ s.stack = [.user])) : Phase s (some c)
  | noMem (c : Nat) (h : s.queued = 0 ∧ s.newContext = some c ∧ lastReport s.log = some (.arrived c) ∧ s.alive = true ∧ (s.stack = [.user, .afterNoMemory] ∨ s.stack = [.afterNoMemory])) : Phase s (some c)

structure Inv (s : St) (cur : Option Nat) : Prop where
  ub : s.ub = false
  hist : Hist s.next s.log cur
  phase : Phase s cur
  listen : s.listening = true → s.handler = true ∧ s.alive = true
  queued : s.queued ≠ 0 → s.handler = true
  open_ : s.alive = true → s.removed = false
  count : s.log.countP isCall + s.queued = s.log.countP isReport
  truth : Truthful s.log

theorem Inv.idle_of {s : St} {cur : Option Nat} (h : Inv s cur) (hr : s.queued = 0 ∧ .afterNoMemory ∉ s.stack) :
    cur = none ∧ (s.stack = [] ∨ s.stack = [.user]) := by
  cases h.phase with
  | idle g => exact ⟨rfl, g.2⟩
  | error g => rw [hr.1] at g; simp at g
  | waiting c g => rw [hr.1] at g; simp at g
  | noMem c g =>
    exfalso
    apply hr.2
    rcases g.2.2.2.2 with e | e <;> rw [e] <;> simp

theorem Truthful.snoc {l : List Obs} (h : Truthful l) {o : Obs} (ho : Fits l o) : Truthful (l ++ [o]) := by
  intro p x post hl
  rcases List.append_eq_append_iff.mp hl with ⟨a, h1, h2⟩ | ⟨c, h1, h2⟩
  · cases a with
    | nil =>
      simp only [List.nil_append, List.append_nil, List.cons.injEq] at h1 h2
      rw [h1, ← h2.1]
      exact ho
    | cons y ys => simp at h2
  · cases c with
    | nil =>
      simp only [List.nil_append, List.append_nil, List.cons.injEq] at h1 h2
      rw [← h1, h2.1]
      exact ho
    | cons y ys =>
      simp only [List.cons_append, List.cons.injEq] at h2
      obtain ⟨rfl, rfl⟩ := h2
      exact h p x ys h1

theorem lastReport_snoc (l : List Obs) (o : Obs) : lastReport (l ++ [o]) = if isReport o then some o else lastReport l := by
  unfold lastReport
  rw [List.filter_append]
  by_cases h : isReport o = true
  · rw [if_pos h]; simp [h]
  · rw [if_neg h]; simp [h]

theorem countP_snoc (f : Obs → Bool) (l : List Obs) (o : Obs) : (l ++ [o]).countP f = l.countP f + if f o then 1 else 0 := by
  rw [List.countP_append]; simp [List.countP_cons]

theorem step_inv {s s' : St} {m : Move} {cur : Option Nat} (h : Inv s cur) (hr : Rules s m) (hs : step s m = some s') : ∃ cur, Inv s' cur := by
  unfold step at hs
  rw [if_neg (by rw [h.ub]; decide)] at hs
  split at hs
  · -- arrive
    split at hs <;> cases hs
    rename_i hl
    obtain ⟨rfl, hst⟩ := h.idle_of hr
    have hq := hr.1
    refine ⟨some s.next, h.ub, h.hist.arrive, .waiting s.next ⟨?_, rfl, rfl, ?_, (h.listen hl).2, hst⟩, h.listen, fun _ => (h.listen hl).1, h.open_, ?_, h.truth.snoc trivial⟩
    · show s.queued + 1 = 1; rw [hq]
    · show lastReport (s.log ++ [Obs.arrived s.next]) = _; rw [lastReport_snoc]; rfl
    · show (s.log ++ [Obs.arrived s.next]).countP isCall + (s.queued + 1) = (s.log ++ [Obs.arrived s.next]).countP isReport
      rw [countP_snoc, countP_snoc]
      have := h.count
      simp [isCall, isReport]; omega
  · -- fail
    rename_i e
    split at hs <;> cases hs
    rename_i hl
    rw [Bool.and_eq_true, decide_eq_true_eq] at hl
    obtain ⟨rfl, hst⟩ := h.idle_of hr
    have hq := hr.1
    refine ⟨none, h.ub, h.hist.other (by simp) (by simp) (by simp), .error ⟨?_, ?_, ?_, (h.listen hl.1).2, hst⟩, h.listen, fun _ => (h.listen hl.1).1, h.open_, ?_, h.truth.snoc trivial⟩
    · show s.queued + 1 = 1; rw [hq]
    · show e ≠ SUCCESS
      intro he
      rw [he] at hl
      exact absurd hl.2 (by decide)
    · show lastReport (s.log ++ [Obs.failed e]) = _; rw [lastReport_snoc]; rfl
    · show (s.log ++ [Obs.failed e]).countP isCall + (s.queued + 1) = (s.log ++ [Obs.failed e]).countP isReport
      rw [countP_snoc, countP_snoc]
      have := h.count
      simp [isCall, isReport]; omega
  · -- enter
    rename_i hst
    injection hs with hs
    subst hs
    refine ⟨cur, h.ub, h.hist, ?_, h.listen, h.queued, h.open_, h.count, h.truth⟩
    cases h.phase with
    | idle g => exact .idle ⟨g.1, .inr rfl⟩
    | error g => exact .error ⟨g.1, g.2.1, g.2.2.1, g.2.2.2.1, .inr rfl⟩
    | waiting c g => exact .waiting c ⟨g.1, g.2.1, g.2.2.1, g.2.2.2.1, g.2.2.2.2.1, .inr rfl⟩
    | noMem c g => exfalso; rw [hst] at g; simp at g
  · -- event
    rename_i alloc hst
    split at hs
    · cases hs
    rename_i hq
    injection hs with hs
    subst hs
    have hh := h.queued hq
    have hcount := h.count
    have hnolisten : s.alive = true → event s alloc = acceptCallback { s with queued := s.queued - 1 } alloc := by
      intro ha
      unfold event
      simp only [ha, h.open_ ha, hh]
      rfl
    cases h.phase with
    | idle g => exact absurd g.1 hq
    | noMem c g => exact absurd g.1 hq
    | error g =>
      obtain ⟨a1, a2, a3, a4, -⟩ := g
      rw [hnolisten a4, a1]
      unfold acceptCallback
      dsimp only
      rw [if_pos a2]
      refine ⟨none, h.ub, h.hist.other (by simp) (by simp) (by simp), .idle ⟨rfl, .inr (by rw [hst])⟩, h.listen, by simp, h.open_, ?_, h.truth.snoc (.inl a3)⟩
      show (s.log ++ [Obs.error s.acceptStatus]).countP isCall + 0 = (s.log ++ [Obs.error s.acceptStatus]).countP isReport
      rw [countP_snoc, countP_snoc]
      simp [isCall, isReport]; omega
    | waiting c g =>
      obtain ⟨a1, a2, a3, a4, a5, -⟩ := g
      rw [hnolisten a5, a1]
      unfold acceptCallback
      dsimp only
      rw [if_neg (by rw [a2]; simp)]
      cases alloc with
      | true =>
        rw [if_pos rfl, a3]
        dsimp only
        refine ⟨none, h.ub, h.hist.deal (.inl rfl), .idle ⟨rfl, .inr (by rw [hst])⟩, h.listen, by simp, h.open_, ?_, h.truth.snoc a4⟩
        show (s.log ++ [Obs.handed c]).countP isCall + 0 = (s.log ++ [Obs.handed c]).countP isReport
        rw [countP_snoc, countP_snoc]
        simp [isCall, isReport]; omega
      | false =>
        rw [if_neg (by simp)]
        refine ⟨some c, h.ub, h.hist.other (by simp) (by simp) (by simp), .noMem c ⟨rfl, a3, ?_, a5, .inl (by rw [hst])⟩, h.listen, by simp, h.open_, ?_,
          h.truth.snoc (.inr ⟨rfl, c, a4⟩)⟩
        · show lastReport (s.log ++ [Obs.error NO_MEMORY]) = _; rw [lastReport_snoc]; exact a4
        · show (s.log ++ [Obs.error NO_MEMORY]).countP isCall + 0 = (s.log ++ [Obs.error NO_MEMORY]).countP isReport
          rw [countP_snoc, countP_snoc]
          simp [isCall, isReport]; omega
  · -- leave
    rename_i k hst
    injection hs with hs
    subst hs
    refine ⟨cur, h.ub, h.hist, ?_, h.listen, h.queued, h.open_, h.count, h.truth⟩
    have hk : s.stack = [] ∨ s.stack = [.user] → k = [] := by
      intro hk; rw [hst] at hk; simpa using hk
    cases h.phase with
    | idle g => exact .idle ⟨g.1, .inl (hk g.2)⟩
    | error g => exact .error ⟨g.1, g.2.1, g.2.2.1, g.2.2.2.1, .inl (hk g.2.2.2.2)⟩
    | waiting c g => exact .waiting c ⟨g.1, g.2.1, g.2.2.1, g.2.2.2.1, g.2.2.2.2.1, .inl (hk g.2.2.2.2.2)⟩
    | noMem c g =>
      refine .noMem c ⟨g.1, g.2.1, g.2.2.1, g.2.2.2.1, .inr ?_⟩
      have := g.2.2.2.2
      rw [hst] at this
      simpa using this
  · -- accept
    rename_i listen acceptOk k hst
    split at hs <;> cases hs
    rename_i ha
    have hl : ∃ e, (accept s listen acceptOk).log = s.log ++ [.accept e] := by
      unfold accept; dsimp only; split
      · exact ⟨_, rfl⟩
      · exact ⟨_, rfl⟩
    obtain ⟨e, hl⟩ := hl
    have hsame : (accept s listen acceptOk).queued = s.queued ∧ (accept s listen acceptOk).stack = s.stack ∧ (accept s listen acceptOk).alive = s.alive ∧
        (accept s listen acceptOk).acceptStatus = s.acceptStatus ∧ (accept s listen acceptOk).newContext = s.newContext ∧
        (accept s listen acceptOk).ub = s.ub ∧ (accept s listen acceptOk).next = s.next ∧ (accept s listen acceptOk).removed = s.removed ∧
        (accept s listen acceptOk).handler = true := by
      unfold accept; dsimp only; split <;> simp
    obtain ⟨b1, b2, b3, b4, b5, b6, b7, b8, b9⟩ := hsame
    have hrep : lastReport (accept s listen acceptOk).log = lastReport s.log := by rw [hl, lastReport_snoc]; rfl
    refine ⟨cur, by rw [b6]; exact h.ub, by rw [b7, hl]; exact h.hist.other (by simp) (by simp) (by simp), ?_, fun _ => ⟨b9, by rw [b3]; exact ha⟩, fun _ => b9,
      by rw [b3, b8]; exact h.open_, ?_, by rw [hl]; exact h.truth.snoc trivial⟩
    · cases h.phase with
      | idle g => exact .idle (by rw [b1, b2]; exact g)
      | error g => exact .error (by rw [b1, b2, b3, b4, hrep]; exact g)
      | waiting c g => exact .waiting c (by rw [b1, b2, b3, b4, b5, hrep]; exact g)
      | noMem c g => exact .noMem c (by rw [b1, b2, b3, b5, hrep]; exact g)
    · rw [hl, b1, countP_snoc, countP_snoc]
      have := h.count
      simp [isCall, isReport]; omega
  · -- close
    rename_i k hst
    split at hs <;> cases hs
    rename_i ha
    obtain ⟨rfl, hst'⟩ := h.idle_of hr
    refine ⟨none, h.ub, h.hist.other (by simp) (by simp) (by simp), .idle ⟨hr.1, hst'⟩, by simp [close], h.queued, by simp [close], ?_, h.truth.snoc trivial⟩
    show (s.log ++ [Obs.closed]).countP isCall + s.queued = (s.log ++ [Obs.closed]).countP isReport
    rw [countP_snoc, countP_snoc]
    have := h.count
    simp [isCall, isReport]; omega
  · -- afterNoMemory
    rename_i k hst
    injection hs with hs
    subst hs
    have hnot : ¬ (s.stack = [] ∨ s.stack = [.user]) := by rw [hst]; simp
    cases h.phase with
    | idle g => exact absurd g.2 hnot
    | error g => exact absurd g.2.2.2.2 hnot
    | waiting c g => exact absurd g.2.2.2.2.2 hnot
    | noMem c g =>
      obtain ⟨a1, a2, a3, a4, a5⟩ := g
      have hk : k = [] := by rw [hst] at a5; simpa using a5
      subst hk
      have e : afterNoMemory { s with stack := [] } = { s with stack := [], log := s.log ++ [.dropped c] } := by
        unfold afterNoMemory
        simp only [a4, a2]
        rfl
      rw [e]
      refine ⟨none, h.ub, h.hist.deal (.inr rfl), .idle ⟨a1, .inl rfl⟩, h.listen, h.queued, h.open_, ?_, h.truth.snoc a3⟩
      show (s.log ++ [Obs.dropped c]).countP isCall + s.queued = (s.log ++ [Obs.dropped c]).countP isReport
      rw [countP_snoc, countP_snoc]
      have := h.count
      simp [isCall, isReport]; omega
  · cases hs

theorem reach_inv {s : St} (h : Reach Rules s) : ∃ cur, Inv s cur := by
  induction h with
  | init =>
    refine ⟨none, rfl, ⟨by simp [initial], by simp [initial], fun _ _ => rfl, by simp⟩, .idle ⟨rfl, .inl rfl⟩, by simp [initial], by simp [initial], fun _ => rfl, rfl, ?_⟩
    intro p o post hl
    simp [initial] at hl
  | step _ hr hs ih =>
    obtain ⟨c, h⟩ := ih
    exact step_inv h hr hs

/-! ### Theorems -/

/-- C51 (when connections arrive one at a time): no connection is handed out or given back twice, or both; nothing is handed out that did
not arrive; the handler is told of the last thing the network stack reported, once for each report; and the library never touches a
server socket that was closed. -/
theorem accepted_once_partial {s : St} (h : Reach Rules s) :
    (∀ c, handedOut c s.log + givenBack c s.log ≤ 1) ∧ (∀ c, handedOut c s.log + givenBack c s.log ≠ 0 → .arrived c ∈ s.log) ∧
    Truthful s.log ∧ s.log.countP isCall + s.queued = s.log.countP isReport ∧ s.ub = false := by
  obtain ⟨cur, h⟩ := reach_inv h
  have hle : ∀ c, total c s.log ≤ 1 := by
    intro c
    by_cases hc : c < s.next
    · by_cases hcur : cur = some c
      · have := (h.hist.cur c hcur).2; omega
      · have := h.hist.old c hc hcur; omega
    · have := h.hist.new c (by omega); omega
  refine ⟨hle, ?_, h.truth, h.count, h.ub⟩
  intro c hc
  rw [h.hist.arrived]
  by_cases hlt : c < s.next
  · exact hlt
  · exact absurd (h.hist.new c (by omega)) hc

/-- C51 (when connections arrive one at a time): no connection is forgotten: when the program is back in the event loop and the queue is
empty, every connection was handed out or given back, once. -/
theorem not_forgotten_partial {s : St} (h : Reach Rules s) (hst : s.stack = []) (hq : s.queued = 0) {c : Nat} (hc : .arrived c ∈ s.log) :
    handedOut c s.log + givenBack c s.log = 1 := by
  obtain ⟨cur, h⟩ := reach_inv h
  obtain ⟨rfl, -⟩ := h.idle_of ⟨hq, by rw [hst]; simp⟩
  exact h.hist.old c ((h.hist.arrived c).mp hc) (by simp)

/-- C51 (when connections arrive one at a time): a waiting connection is handed out by the next event if there is memory, and given back if not. -/
theorem waiting_is_handed_out_partial {s : St} {c : Nat} (h : Reach Rules s) (hst : s.stack = []) (hc : .arrived c ∈ s.log)
    (h0 : handedOut c s.log + givenBack c s.log = 0) :
    (∃ s', step s (.event true) = some s' ∧ s'.log = s.log ++ [.handed c]) ∧
    (∃ s', run s [.event false, .leave, .continue] = some s' ∧ s'.log = s.log ++ [.error NO_MEMORY, .dropped c]) := by
  obtain ⟨cur, h⟩ := reach_inv h
  have hcur : cur = some c := by
    by_cases hcur : cur = some c
    · exact hcur
    · have h1 := h.hist.old c ((h.hist.arrived c).mp hc) hcur
      unfold total at h1
      omega
  subst hcur
  have hp := h.phase
  generalize hg : some c = cc at hp
  cases hp with
  | idle => cases hg
  | error => cases hg
  | noMem d g => rw [hst] at g; simp at g
  | waiting d g =>
    injection hg with hg
    subst hg
    obtain ⟨a1, a2, a3, a4, a5, -⟩ := g
    have hh := h.queued (by omega)
    have hre := h.open_ a5
    refine ⟨⟨{ s with queued := 0, stack := [.user], log := s.log ++ [.handed c] }, ?_, rfl⟩,
      ⟨{ s with queued := 0, log := s.log ++ [.error NO_MEMORY, .dropped c] }, ?_, rfl⟩⟩
    · simp [step, h.ub, hst, event, acceptCallback, a1, a2, a3, a5, hh, hre]
    · simp [run, step, h.ub, hst, event, acceptCallback, afterNoMemory, a1, a2, a3, a5, hh, hre]

/-! ### What does not hold -/

/-- C51 fails when two connections arrive before the event loop has seen the first one: the first is forgotten, the second is handed out twice
(two sockets use the same connection). -/
theorem two_connections_mixed_up : ∃ s, run initial [.enter, .accept 0 true, .leave, .arrive, .arrive, .event true, .leave, .event true, .leave] = some s ∧
    s.log = [.accept SUCCESS, .arrived 0, .arrived 1, .handed 1, .handed 1] ∧ s.queued = 0 := ⟨_, rfl, rfl, rfl⟩

/-- C51 fails when a connection arrives while the handler is told of a lack of memory: the wrong connection is given back, and it is handed out
after that. -/
theorem wrong_connection_dropped : ∃ s, run initial [.enter, .accept 0 true, .leave, .arrive, .event false, .arrive, .leave, .continue, .event true, .leave] = some s ∧
    s.log = [.accept SUCCESS, .arrived 0, .error NO_MEMORY, .arrived 1, .dropped 1, .handed 1] := ⟨_, rfl, rfl⟩

/-- C51 fails when the server socket is closed while a connection waits: the event loop uses the closed object, the connection is leaked. -/
theorem closed_server_used : ∃ s, run initial [.enter, .accept 0 true, .arrive, .close, .leave, .event true] = some s ∧ s.ub = true ∧
    handedOut 0 s.log + givenBack 0 s.log = 0 := ⟨_, rfl, rfl, rfl⟩

/-- C51 fails when the handler closes the server socket on being told of a lack of memory. -/
theorem close_in_no_memory_handler : ∃ s, run initial [.enter, .accept 0 true, .leave, .arrive, .event false, .close, .leave, .continue] = some s ∧ s.ub = true :=
  ⟨_, rfl, rfl⟩

/-- C51: success is reported although `net_context_accept` failed; then no handler is ever called. -/
theorem failed_accept_succeeds : ∃ s, run initial [.enter, .accept 0 false, .leave] = some s ∧ s.log = [.accept SUCCESS] ∧
    ∀ alloc, step s .arrive = none ∧ step s (.fail (-1)) = none ∧ step s (.event alloc) = none := ⟨_, rfl, rfl, fun _ => ⟨rfl, rfl, rfl⟩⟩

/-! ### Non-vacuity -/

instance (s : St) (m : Move) : Decidable (Rules s m) := by cases m <;> unfold Rules <;> infer_instance

/-- Run within the rules. -/
def runRules : St → List Move → Option St
  | s, [] => some s
  | s, m :: ms => if Rules s m then (step s m).bind fun s => runRules s ms else none

theorem reach_runRules (ms : List Move) : ∀ {s s' : St}, Reach Rules s → runRules s ms = some s' → Reach Rules s' := by
  induction ms with
  | nil => intro s s' h hr; cases hr; exact h
  | cons x ms ih =>
    intro s s' h hr
    unfold runRules at hr
    split at hr
    · rename_i hb
      rw [Option.bind_eq_some_iff] at hr
      obtain ⟨t, h1, h2⟩ := hr
      exact ih (.step h hb h1) h2
    · cases hr

/-- Two connections, a failure, a lack of memory. -/
def exampleMoves : List Move :=
  [.enter, .accept 0 true, .leave, .arrive, .event true, .leave, .fail (-23), .event true, .leave, .arrive, .event false, .leave, .continue, .arrive, .event true,
   .close, .leave]

example : ∃ s, Reach Rules s ∧ s.log = [.accept SUCCESS, .arrived 0, .handed 0, .failed (-23), .error (-23), .arrived 1, .error NO_MEMORY, .dropped 1, .arrived 2,
    .handed 2, .closed] := by
  refine ⟨(runRules initial exampleMoves).getD initial, reach_runRules exampleMoves .init ?_, ?_⟩ <;> decide

end Cio.Zephyr.Accept
