import Verif.Zephyr.SocketModel
/-
Property theorems for the sockets of the Zephyr port (C50).
-/
namespace Cio.Zephyr.Socket

/-! ### Specification -/

/-- How often a handler of operation `k` was called. -/
def answers (k : Nat) (l : List Obs) : Nat := l.countP fun o => match o with
  | .readDone j _ _ | .writeDone j _ _ => j = k
  | _ => false

/-- Operation `k` was started. -/
def Started (k : Nat) (l : List Obs) : Prop := (∃ space, .read k space ∈ l) ∨ ∃ len, .write k len ∈ l

/-- Every operation that was started is answered. -/
def AllAnswered (l : List Obs) : Prop := ∀ k, Started k l → answers k l = 1

/-- The rules of use under which the property holds: an operation is started only when all earlier ones are answered, and the socket is
not closed between a report of the network stack and the call of the handler. -/
def Rules (s : St) : Move → Prop
  | .read _ _ | .write _ _ => AllAnswered s.log
  | .close => s.queued = 0
  | _ => True

/-- States reached by moves that keep to `rules`. -/
inductive Reach (rules : St → Move → Prop) : St → Prop
  | init : Reach rules initial
  | step {s s' : St} {m : Move} (h : Reach rules s) (hr : rules s m) (hs : step s m = some s') : Reach rules s'

/-- What a read handler is told, given what the network stack reported: the first `space` bytes of the packet, or nothing. -/
def readResult (space : Nat) : Obs → Option (Err × Bytes)
  | .packet b => some (SUCCESS, b.take space)
  | .eof => some (EOF, [])
  | .failed e => some (e, [])
  | _ => none

/-- What a write handler is told of a write of `len` bytes. -/
def writeResult (len : Nat) (status : Int) : Err × Nat := if status < 0 then (status, 0) else (SUCCESS, len)

/-- Handlers are told the truth: the read handler is told what the network stack reported since this very read was started, the write
handler is told of the success if the stack has reported no error. -/
def Truthful (l : List Obs) : Prop :=
  (∀ p k e b post, l = p ++ .readDone k e b :: post → ∃ q space o, p = q ++ [.read k space, o] ∧ readResult space o = some (e, b)) ∧
  (∀ p k e n post, l = p ++ .writeDone k e n :: post → ∃ q len z st, p = q ++ .write k len :: List.replicate z (.sent 0) ++ [.sent st] ∧ st ≠ 0 ∧
    writeResult len st = (e, n))

/-! ### Invariant -/

theorem answers_snoc (k : Nat) (l : List Obs) (o : Obs) : answers k (l ++ [o]) = answers k l + (match o with
    | .readDone j _ _ | .writeDone j _ _ => if j = k then 1 else 0
    | _ => 0) := by
  unfold answers
  rw [List.countP_append]
  cases o with
  | readDone u e b => by_cases h : u = k <;> simp [h]
  | writeDone u e b => by_cases h : u = k <;> simp [h]
  | _ => simp

/-- Splitting a list at an element, when the list ends with another one. -/
theorem snoc_split {α : Type} {l p post : List α} {o x : α} (h : l ++ [o] = p ++ x :: post) : (l = p ∧ o = x) ∨ ∃ post', l = p ++ x :: post' := by
  rcases List.append_eq_append_iff.mp h with ⟨a, h1, h2⟩ | ⟨c, h1, h2⟩
  · cases a with
    | nil =>
      simp only [List.nil_append, List.append_nil, List.cons.injEq] at h1 h2
      exact .inl ⟨h1.symm, h2.1⟩
    | cons y ys => simp at h2
  · cases c with
    | nil =>
      simp only [List.nil_append, List.append_nil, List.cons.injEq] at h1 h2
      exact .inl ⟨h1, h2.1.symm⟩
    | cons y ys =>
      simp only [List.cons_append, List.cons.injEq] at h2
      obtain ⟨rfl, rfl⟩ := h2
      exact .inr ⟨ys, h1⟩

theorem Truthful.snoc {l : List Obs} (h : Truthful l) {o : Obs}
    (hr : ∀ k e b, o = .readDone k e b → ∃ q space o, l = q ++ [.read k space, o] ∧ readResult space o = some (e, b))
    (hw : ∀ k e n, o = .writeDone k e n → ∃ q len z st, l = q ++ .write k len :: List.replicate z (.sent 0) ++ [.sent st] ∧ st ≠ 0 ∧ writeResult len st = (e, n)) :
    Truthful (l ++ [o]) := by
  constructor
  · intro p k e b post hl
    rcases snoc_split hl with ⟨rfl, rfl⟩ | ⟨post', hl'⟩
    · exact hr k e b rfl
    · exact h.1 p k e b post' hl'
  · intro p k e b post hl
    rcases snoc_split hl with ⟨rfl, rfl⟩ | ⟨post', hl'⟩
    · exact hw k e b rfl
    · exact h.2 p k e b post' hl'

theorem started_snoc (k : Nat) (l : List Obs) (o : Obs) : Started k (l ++ [o]) ↔ Started k l ∨ (∃ sp, o = .read k sp) ∨ ∃ len, o = .write k len := by
  unfold Started
  simp only [List.mem_append, List.mem_singleton]
  constructor
  · rintro (⟨sp, h | h⟩ | ⟨sp, h | h⟩)
    · exact .inl (.inl ⟨sp, h⟩)
    · exact .inr (.inl ⟨sp, h.symm⟩)
    · exact .inl (.inr ⟨sp, h⟩)
    · exact .inr (.inr ⟨sp, h.symm⟩)
  · rintro ((⟨sp, h⟩ | ⟨sp, h⟩) | ⟨sp, h⟩ | ⟨sp, h⟩)
    · exact .inl ⟨sp, .inl h⟩
    · exact .inr ⟨sp, .inl h⟩
    · exact .inl ⟨sp, .inr h.symm⟩
    · exact .inr ⟨sp, .inr h.symm⟩

/-- The history; `cur` is the operation that is under way. -/
structure Hist (next : Nat) (l : List Obs) (cur : Option Nat) : Prop where
  lt : ∀ k, Started k l → k < next
  fresh : ∀ k, next ≤ k → answers k l = 0
  once : ∀ k, answers k l ≤ 1
  old : ∀ k, Started k l → cur ≠ some k → answers k l = 1
  cur : ∀ k, cur = some k → Started k l ∧ answers k l = 0
  truth : Truthful l

/-- Where the operation is. -/
inductive Phase (s : St) : Option Nat → Prop
  | idle (h : s.queued = 0 ∧ s.recvCb = false ∧ s.sendCb = false) : Phase s none
  | reading (k sp : Nat) (q : List Obs) (h : s.alive = true ∧ s.queued = 0 ∧ s.recvCb = true ∧ s.sendCb = false ∧ s.cb = some .read ∧ s.readOp = some k ∧
      s.room = sp ∧ s.filled = [] ∧ s.log = q ++ [.read k sp]) : Phase s (some k)
  | got (k sp : Nat) (q : List Obs) (o : Obs) (h : s.alive = true ∧ s.queued = 1 ∧ s.recvCb = false ∧ s.sendCb = false ∧ s.cb = some .read ∧ s.readOp = some k ∧
      readResult sp o = some (s.readStatus, s.filled) ∧ s.log = q ++ [.read k sp, o]) : Phase s (some k)
  | writing (k len z : Nat) (q : List Obs) (h : s.alive = true ∧ s.queued = 0 ∧ s.recvCb = false ∧ s.sendCb = true ∧ s.cb = some .written ∧ s.writeOp = some k ∧
      s.bytesToSend = len ∧ s.log = q ++ .write k len :: List.replicate z (.sent 0)) : Phase s (some k)
  | sent (k len z : Nat) (q : List Obs) (h : s.alive = true ∧ s.queued = 1 ∧ s.recvCb = false ∧ s.sendCb = false ∧ s.cb = some .written ∧ s.writeOp = some k ∧
      s.bytesToSend = len ∧ s.sendStatus ≠ 0 ∧ s.log = q ++ .write k len :: List.replicate z (.sent 0) ++ [.sent s.sendStatus]) : Phase s (some k)
  | dead (c : Option Nat) (h : s.alive = false ∧ s.queued = 0 ∧ s.recvCb = false ∧ s.sendCb = false) : Phase s c

structure Inv (s : St) (cur : Option Nat) : Prop where
  ub : s.ub = false
  hist : Hist s.next s.log cur
  phase : Phase s cur

/-- An observation that neither starts nor answers anything. -/
theorem Hist.other {next : Nat} {l : List Obs} {cur : Option Nat} (h : Hist next l cur) {o : Obs} (h1 : ∀ k sp, o ≠ .read k sp) (h2 : ∀ k n, o ≠ .write k n)
    (h3 : ∀ k e b, o ≠ .readDone k e b) (h4 : ∀ k e n, o ≠ .writeDone k e n) : Hist next (l ++ [o]) cur := by
  have hs : ∀ k, Started k (l ++ [o]) ↔ Started k l := by
    intro k
    rw [started_snoc]
    refine or_iff_left ?_
    rintro (⟨sp, h⟩ | ⟨n, h⟩)
    · exact h1 _ _ h
    · exact h2 _ _ h
  have ha : ∀ k, answers k (l ++ [o]) = answers k l := by
    intro k
    rw [answers_snoc]
    cases o with
    | readDone j e b => exact absurd rfl (h3 j e b)
    | writeDone j e b => exact absurd rfl (h4 j e b)
    | _ => rfl
  refine ⟨fun k hk => h.lt k ((hs k).mp hk), fun k hk => by rw [ha]; exact h.fresh k hk, fun k => by rw [ha]; exact h.once k,
    fun k hk hc => by rw [ha]; exact h.old k ((hs k).mp hk) hc, fun k hk => ⟨(hs k).mpr (h.cur k hk).1, by rw [ha]; exact (h.cur k hk).2⟩,
    h.truth.snoc (fun k e b he => absurd he (h3 k e b)) (fun k e b he => absurd he (h4 k e b))⟩

theorem Hist.next {next : Nat} {l : List Obs} {cur : Option Nat} (h : Hist next l cur) : Hist (next + 1) l cur :=
  ⟨fun k hk => by have := h.lt k hk; omega, fun k hk => h.fresh k (by omega), h.once, h.old, h.cur, h.truth⟩

/-- An operation is started. -/
theorem Hist.start {next : Nat} {l : List Obs} (h : Hist next l none) {o : Obs} (ho : (∃ sp, o = .read next sp) ∨ ∃ n, o = .write next n) :
    Hist (next + 1) (l ++ [o]) (some next) := by
  have hs : ∀ k, Started k (l ++ [o]) ↔ Started k l ∨ k = next := by
    intro k
    rw [started_snoc]
    refine or_congr Iff.rfl ?_
    rcases ho with ⟨sp, rfl⟩ | ⟨n, rfl⟩ <;> simp [eq_comm]
  have ha : ∀ k, answers k (l ++ [o]) = answers k l := by
    intro k
    rw [answers_snoc]
    rcases ho with ⟨sp, rfl⟩ | ⟨n, rfl⟩ <;> rfl
  refine ⟨?_, ?_, ?_, ?_, ?_, ?_⟩
  · intro k hk
    rcases (hs k).mp hk with hk | hk
    · have := h.lt k hk; omega
    · omega
  · intro k hk; rw [ha]; exact h.fresh k (by omega)
  · intro k; rw [ha]; exact h.once k
  · intro k hk hc
    rw [ha]
    rcases (hs k).mp hk with hk | hk
    · exact h.old k hk (by simp)
    · exact absurd (by rw [hk]) hc
  · intro k hk
    injection hk with hk
    subst hk
    exact ⟨(hs _).mpr (.inr rfl), by rw [ha]; exact h.fresh _ (by omega)⟩
  · refine h.truth.snoc ?_ ?_
    · rintro k e b rfl
      rcases ho with ⟨sp, ho⟩ | ⟨n, ho⟩ <;> cases ho
    · rintro k e b rfl
      rcases ho with ⟨sp, ho⟩ | ⟨n, ho⟩ <;> cases ho

/-- The operation is answered. -/
theorem Hist.answer {next k : Nat} {l : List Obs} (h : Hist next l (some k)) {o : Obs} (ho : (∃ e b, o = .readDone k e b) ∨ ∃ e n, o = .writeDone k e n)
    (ht : Truthful (l ++ [o])) : Hist next (l ++ [o]) none := by
  have hs : ∀ j, Started j (l ++ [o]) ↔ Started j l := by
    intro j
    rw [started_snoc]
    refine or_iff_left ?_
    rcases ho with ⟨e, b, rfl⟩ | ⟨e, n, rfl⟩ <;> simp
  have ha : ∀ j, answers j (l ++ [o]) = answers j l + if k = j then 1 else 0 := by
    intro j
    rw [answers_snoc]
    rcases ho with ⟨e, b, rfl⟩ | ⟨e, n, rfl⟩ <;> rfl
  obtain ⟨hst, h0⟩ := h.cur k rfl
  refine ⟨fun j hj => h.lt j ((hs j).mp hj), ?_, ?_, ?_, by simp, ht⟩
  · intro j hj
    have := h.lt k hst
    rw [ha, if_neg (by omega)]
    exact h.fresh j hj
  · intro j
    rw [ha]
    by_cases hkj : k = j
    · rw [if_pos hkj, ← hkj, h0]; exact Nat.le_refl 1
    · rw [if_neg hkj]; exact h.once j
  · intro j hj _
    rw [ha]
    by_cases hkj : k = j
    · rw [if_pos hkj, ← hkj, h0]
    · rw [if_neg hkj]; exact h.old j ((hs j).mp hj) (by simpa using hkj)

theorem Inv.idle_of {s : St} {cur : Option Nat} (h : Inv s cur) (hans : AllAnswered s.log) (ha : s.alive = true) :
    cur = none ∧ s.queued = 0 ∧ s.recvCb = false ∧ s.sendCb = false := by
  have hc : cur = none := by
    cases hc : cur with
    | none => rfl
    | some k =>
      obtain ⟨h1, h2⟩ := h.hist.cur k hc
      have := hans k h1
      omega
  subst hc
  have hp := h.phase
  generalize hg : (none : Option Nat) = c at hp
  cases hp with
  | idle g => exact ⟨rfl, g⟩
  | dead _ g => rw [ha] at g; cases g.1
  | _ => cases hg

theorem Inv.recv {s : St} {cur : Option Nat} (h : Inv s cur) (hc : s.recvCb = true) : ∃ k sp q, cur = some k ∧ s.alive = true ∧ s.queued = 0 ∧ s.sendCb = false ∧
    s.cb = some .read ∧ s.readOp = some k ∧ s.room = sp ∧ s.filled = [] ∧ s.log = q ++ [.read k sp] := by
  have hp := h.phase
  cases hp with
  | reading k sp q g => exact ⟨k, sp, q, rfl, g.1, g.2.1, g.2.2.2.1, g.2.2.2.2⟩
  | idle g => rw [hc] at g; simp at g
  | got _ _ _ _ g => rw [hc] at g; simp at g
  | writing _ _ _ _ g => rw [hc] at g; simp at g
  | sent _ _ _ _ g => rw [hc] at g; simp at g
  | dead _ g => rw [hc] at g; simp at g

theorem step_inv {s s' : St} {m : Move} {cur : Option Nat} (h : Inv s cur) (hr : Rules s m) (hs : step s m = some s') : ∃ cur, Inv s' cur := by
  have hph : ∀ u, Phase { s with user := u } cur := by
    intro u
    cases h.phase with
    | idle g => exact .idle g
    | reading k sp q g => exact .reading k sp q g
    | got k sp q o g => exact .got k sp q o g
    | writing k len z q g => exact .writing k len z q g
    | sent k len z q g => exact .sent k len z q g
    | dead _ g => exact .dead _ g
  unfold step at hs
  rw [if_neg (by rw [h.ub]; decide)] at hs
  cases m with
  | enter =>
    dsimp only at hs
    split at hs <;> cases hs
    exact ⟨cur, h.ub, h.hist, hph true⟩
  | leave =>
    dsimp only at hs
    split at hs <;> cases hs
    exact ⟨cur, h.ub, h.hist, hph false⟩
  | read space ok =>
    dsimp only at hs
    split at hs <;> cases hs
    rename_i hu
    rw [Bool.and_eq_true] at hu
    obtain ⟨rfl, h1, h2, h3⟩ := h.idle_of hr hu.2
    cases ok with
    | true =>
      exact ⟨some s.next, h.ub, h.hist.start (.inl ⟨space, rfl⟩), .reading s.next space s.log ⟨hu.2, h1, rfl, h3, rfl, rfl, rfl, rfl, rfl⟩⟩
    | false =>
      exact ⟨none, h.ub, h.hist.next.other (by simp) (by simp) (by simp) (by simp), .idle ⟨h1, h2, h3⟩⟩
  | write len ok =>
    dsimp only at hs
    split at hs <;> cases hs
    rename_i hu
    rw [Bool.and_eq_true] at hu
    obtain ⟨rfl, h1, h2, h3⟩ := h.idle_of hr hu.2
    cases ok with
    | true =>
      exact ⟨some s.next, h.ub, h.hist.start (.inr ⟨len, rfl⟩), .writing s.next len 0 s.log ⟨hu.2, h1, h2, rfl, rfl, rfl, rfl, rfl⟩⟩
    | false =>
      exact ⟨none, h.ub, h.hist.next.other (by simp) (by simp) (by simp) (by simp), .idle ⟨h1, h2, h3⟩⟩
  | close =>
    dsimp only at hs
    split at hs <;> cases hs
    exact ⟨cur, h.ub, h.hist.other (by simp) (by simp) (by simp) (by simp), .dead cur ⟨rfl, hr, rfl, rfl⟩⟩
  | packet b =>
    dsimp only at hs
    split at hs <;> cases hs
    rename_i hc
    obtain ⟨k, sp, q, rfl, a1, a2, a3, a4, a5, a6, a7, a8⟩ := h.recv hc
    refine ⟨some k, h.ub, h.hist.other (by simp) (by simp) (by simp) (by simp), .got k sp q (.packet b) ⟨a1, ?_, rfl, a3, a4, a5, ?_, ?_⟩⟩
    · show s.queued + 1 = 1; rw [a2]
    · show some (SUCCESS, b.take sp) = some (SUCCESS, s.filled ++ b.take (min b.length s.room))
      rw [a7, a6, List.nil_append]
      congr 2
      rw [List.take_eq_take_iff]
      omega
    · show s.log ++ [.packet b] = _
      rw [a8]; simp
  | eof =>
    dsimp only at hs
    split at hs <;> cases hs
    rename_i hc
    obtain ⟨k, sp, q, rfl, a1, a2, a3, a4, a5, a6, a7, a8⟩ := h.recv hc
    refine ⟨some k, h.ub, h.hist.other (by simp) (by simp) (by simp) (by simp), .got k sp q .eof ⟨a1, ?_, rfl, a3, a4, a5, ?_, ?_⟩⟩
    · show s.queued + 1 = 1; rw [a2]
    · show some (EOF, []) = some (EOF, s.filled)
      rw [a7]
    · show s.log ++ [.eof] = _
      rw [a8]; simp
  | failed e =>
    dsimp only at hs
    split at hs <;> cases hs
    rename_i hc
    obtain ⟨k, sp, q, rfl, a1, a2, a3, a4, a5, a6, a7, a8⟩ := h.recv hc
    refine ⟨some k, h.ub, h.hist.other (by simp) (by simp) (by simp) (by simp), .got k sp q (.failed e) ⟨a1, ?_, rfl, a3, a4, a5, ?_, ?_⟩⟩
    · show s.queued + 1 = 1; rw [a2]
    · show some (e, []) = some (e, s.filled)
      rw [a7]
    · show s.log ++ [.failed e] = _
      rw [a8]; simp
  | sent status =>
    dsimp only at hs
    split at hs <;> cases hs
    rename_i hc
    have hw : ∃ k len z q, cur = some k ∧ s.alive = true ∧ s.queued = 0 ∧ s.recvCb = false ∧ s.cb = some .written ∧ s.writeOp = some k ∧
        s.bytesToSend = len ∧ s.log = q ++ .write k len :: List.replicate z (.sent 0) := by
      cases h.phase with
      | writing k len z q g => exact ⟨k, len, z, q, rfl, g.1, g.2.1, g.2.2.1, g.2.2.2.2⟩
      | idle g => rw [hc] at g; simp at g
      | got _ _ _ _ g => rw [hc] at g; simp at g
      | reading _ _ _ g => rw [hc] at g; simp at g
      | sent _ _ _ _ g => rw [hc] at g; simp at g
      | dead _ g => rw [hc] at g; simp at g
    obtain ⟨k, len, z, q, rfl, a1, a2, a3, a4, a5, a6, a7⟩ := hw
    have hh := h.hist.other (o := .sent status) (by simp) (by simp) (by simp) (by simp)
    unfold sent
    dsimp only
    by_cases h0 : status = 0
    · rw [if_pos h0]
      refine ⟨some k, h.ub, hh, .writing k len (z + 1) q ⟨a1, a2, a3, hc, a4, a5, a6, ?_⟩⟩
      show s.log ++ [.sent status] = _
      rw [a7, h0, List.replicate_succ']
      simp
    · rw [if_neg h0]
      refine ⟨some k, h.ub, hh, .sent k len z q ⟨a1, ?_, a3, rfl, a4, a5, a6, h0, ?_⟩⟩
      · show s.queued + 1 = 1; rw [a2]
      · show s.log ++ [.sent status] = _
        rw [a7]
  | event =>
    dsimp only at hs
    split at hs <;> cases hs
    rename_i hc
    simp only [ne_eq, Bool.and_eq_true, decide_eq_true_eq] at hc
    cases h.phase with
    | idle g => exact absurd g.1 hc.2
    | reading _ _ _ g => exact absurd g.2.1 hc.2
    | writing _ _ _ _ g => exact absurd g.2.1 hc.2
    | dead _ g => exact absurd g.2.1 hc.2
    | got k sp q o h' =>
      obtain ⟨a1, a2, a3, a4, a5, a6, a7, a8⟩ := h'
      have e : event s = { s with queued := 0, user := true, log := s.log ++ [.readDone k s.readStatus s.filled] } := by
        unfold event readCallback
        simp only [a1, a5, a6, a2]
        rfl
      rw [e]
      refine ⟨none, h.ub, h.hist.answer (.inl ⟨_, _, rfl⟩) (h.hist.truth.snoc ?_ (by simp)), .idle ⟨rfl, a3, a4⟩⟩
      intro k' e' b' he
      injection he with e1 e2 e3
      subst e1; subst e2; subst e3
      exact ⟨q, sp, o, a8, a7⟩
    | sent k len z q h' =>
      obtain ⟨a1, a2, a3, a4, a5, a6, a7, a8, a9⟩ := h'
      have e : event s = { s with queued := 0, user := true, log := s.log ++ [.writeDone k (writeResult len s.sendStatus).1 (writeResult len s.sendStatus).2] } := by
        unfold event writtenCallback writeResult
        simp only [a1, a5, a6, a2, a7]
        by_cases h0 : s.sendStatus < 0 <;> simp [h0]
      rw [e]
      refine ⟨none, h.ub, h.hist.answer (.inr ⟨_, _, rfl⟩) (h.hist.truth.snoc (by simp) ?_), .idle ⟨rfl, a3, a4⟩⟩
      intro k' e' b' he
      injection he with e1 e2 e3
      subst e1; subst e2; subst e3
      exact ⟨q, len, z, s.sendStatus, a9, a8, rfl⟩

theorem reach_inv {s : St} (h : Reach Rules s) : ∃ cur, Inv s cur := by
  induction h with
  | init =>
    refine ⟨none, rfl, ⟨?_, fun _ _ => rfl, fun _ => Nat.zero_le _, ?_, by simp, ?_⟩, .idle ⟨rfl, rfl, rfl⟩⟩
    · intro k hk; simp [Started, initial] at hk
    · intro k hk; simp [Started, initial] at hk
    · constructor <;> · intro p k e b post hl; simp [initial] at hl
  | step _ hr hs ih =>
    obtain ⟨c, h⟩ := ih
    exact step_inv h hr hs

/-! ### Theorems -/

/-- C50 (within the rules of use, one operation at a time): handlers are called at most once per operation and told the truth, and the library
never touches a socket that was closed. -/
theorem answered_once_partial {s : St} (h : Reach Rules s) : (∀ k, answers k s.log ≤ 1) ∧ Truthful s.log ∧ s.ub = false := by
  obtain ⟨c, h⟩ := reach_inv h
  exact ⟨h.hist.once, h.hist.truth, h.ub⟩

/-- What a handler call looks like. -/
def Answer (k : Nat) (o : Obs) : Prop := (∃ e b, o = .readDone k e b) ∨ ∃ e n, o = .writeDone k e n

/-- A socket is open until it is closed. -/
theorem open_until_closed {s : St} (h : Reach Rules s) (hc : .closed ∉ s.log) : s.alive = true := by
  induction h with
  | init => rfl
  | @step s s' m hre hr hs ih =>
    unfold step at hs
    split at hs
    · cases hs
    have keep : ∀ o l, l = s.log ++ [o] → .closed ∉ l → s.alive = true := fun o l hl hn => ih (fun q => hn (by rw [hl]; exact List.mem_append_left _ q))
    cases m with
    | enter => dsimp only at hs; split at hs <;> cases hs; exact ih hc
    | leave => dsimp only at hs; split at hs <;> cases hs; exact ih hc
    | read space ok => dsimp only at hs; split at hs <;> cases hs; cases ok <;> exact keep _ _ rfl hc
    | write len ok => dsimp only at hs; split at hs <;> cases hs; cases ok <;> exact keep _ _ rfl hc
    | close =>
      dsimp only at hs
      split at hs <;> cases hs
      exact absurd (List.mem_append_right _ (List.mem_singleton.mpr rfl)) hc
    | packet b => dsimp only at hs; split at hs <;> cases hs; exact keep _ _ rfl hc
    | eof => dsimp only at hs; split at hs <;> cases hs; exact keep _ _ rfl hc
    | failed e => dsimp only at hs; split at hs <;> cases hs; exact keep _ _ rfl hc
    | sent st =>
      dsimp only at hs
      split at hs <;> cases hs
      unfold sent at hc ⊢
      dsimp only at hc ⊢
      by_cases h0 : st = 0
      · rw [if_pos h0] at hc ⊢; exact keep _ _ rfl hc
      · rw [if_neg h0] at hc ⊢; exact keep _ _ rfl hc
    | event =>
      dsimp only at hs
      split at hs <;> cases hs
      have hsub : ∃ l, (event s).log = s.log ++ l ∧ (event s).alive = s.alive := by
        unfold event readCallback writtenCallback
        dsimp only
        repeat' split
        all_goals first | exact ⟨_, rfl, rfl⟩ | exact ⟨[], (List.append_nil _).symm, rfl⟩
      obtain ⟨l, e1, e2⟩ := hsub
      rw [e2]
      exact ih (fun q => hc (by rw [e1]; exact List.mem_append_left _ q))

/-- C50 (within the rules of use): no operation is forgotten as long as the socket is open.  When control is in the event loop it is answered, or its answer is the next thing the event loop does, or it
is answered as soon as the network stack reports: a read with the beginning of the packet, the end or the error, a write with the result. -/
theorem not_forgotten_partial {s : St} (h : Reach Rules s) (hc : .closed ∉ s.log) (hu : s.user = false) {k : Nat} (hk : Started k s.log) :
    answers k s.log = 1 ∨ (answers k s.log = 0 ∧
      ((∃ s' o, step s .event = some s' ∧ s'.log = s.log ++ [o] ∧ Answer k o) ∨
       (∃ sp, .read k sp ∈ s.log ∧
         (∀ b, ∃ s', run s [.packet b, .event] = some s' ∧ s'.log = s.log ++ [.packet b, .readDone k SUCCESS (b.take sp)]) ∧
         (∃ s', run s [.eof, .event] = some s' ∧ s'.log = s.log ++ [.eof, .readDone k EOF []]) ∧
         ∀ e, ∃ s', run s [.failed e, .event] = some s' ∧ s'.log = s.log ++ [.failed e, .readDone k e []]) ∨
       (∃ len, .write k len ∈ s.log ∧
         (∀ st, st < 0 → ∃ s', run s [.sent st, .event] = some s' ∧ s'.log = s.log ++ [.sent st, .writeDone k st 0]) ∧
         ∀ st, 0 < st → ∃ s', run s [.sent st, .event] = some s' ∧ s'.log = s.log ++ [.sent st, .writeDone k SUCCESS len]))) := by
  have ha := open_until_closed h hc
  obtain ⟨c, h⟩ := reach_inv h
  by_cases hc : c = some k
  · right
    subst hc
    refine ⟨(h.hist.cur k rfl).2, ?_⟩
    have hp := h.phase
    generalize hg : some k = c at hp
    cases hp with
    | idle => cases hg
    | reading j sp q h' =>
      injection hg with hg
      subst hg
      obtain ⟨a1, a2, a3, a4, a5, a6, a7, a8, a9⟩ := h'
      refine .inr (.inl ⟨sp, by rw [a9]; simp, ?_, ?_, ?_⟩)
      · intro b
        refine ⟨{ packet s b with queued := 0, user := true, log := s.log ++ [.packet b, .readDone k SUCCESS (b.take sp)] }, ?_, rfl⟩
        have hb : b.take (min b.length sp) = b.take sp := by rw [List.take_eq_take_iff]; omega
        simp [run, step, packet, event, readCallback, h.ub, hu, a1, a2, a3, a5, a6, a7, a8, hb]
      · refine ⟨{ eof s with queued := 0, user := true, log := s.log ++ [.eof, .readDone k EOF []] }, ?_, rfl⟩
        simp [run, step, eof, event, readCallback, h.ub, hu, a1, a2, a3, a5, a6, a8]
      · intro e
        refine ⟨{ failed s e with queued := 0, user := true, log := s.log ++ [.failed e, .readDone k e []] }, ?_, rfl⟩
        simp [run, step, failed, event, readCallback, h.ub, hu, a1, a2, a3, a5, a6, a8]
    | writing j len z q h' =>
      injection hg with hg
      subst hg
      obtain ⟨a1, a2, a3, a4, a5, a6, a7, a8⟩ := h'
      refine .inr (.inr ⟨len, by rw [a8]; simp, ?_, ?_⟩)
      · intro st hst
        have h0 : st ≠ 0 := by omega
        refine ⟨{ sent s st with queued := 0, user := true, log := s.log ++ [.sent st, .writeDone k st 0] }, ?_, rfl⟩
        simp [run, step, sent, event, writtenCallback, h.ub, hu, a1, a2, a4, a5, a6, h0, hst]
      · intro st hst
        have h0 : st ≠ 0 := by omega
        have h1 : ¬ st < 0 := by omega
        refine ⟨{ sent s st with queued := 0, user := true, log := s.log ++ [.sent st, .writeDone k SUCCESS len] }, ?_, rfl⟩
        simp [run, step, sent, event, writtenCallback, h.ub, hu, a1, a2, a4, a5, a6, a7, h0, h1]
    | dead _ h' => rw [ha] at h'; cases h'.1
    | got j sp q o h' =>
      injection hg with hg
      subst hg
      obtain ⟨a1, a2, a3, a4, a5, a6, a7, a8⟩ := h'
      refine .inl ⟨event s, .readDone k s.readStatus s.filled, ?_, ?_, .inl ⟨_, _, rfl⟩⟩
      · unfold step; simp [h.ub, hu, a2]
      · unfold event readCallback; simp [a1, a5, a6]
    | sent j len z q h' =>
      injection hg with hg
      subst hg
      obtain ⟨a1, a2, a3, a4, a5, a6, a7, a8, a9⟩ := h'
      refine .inl ⟨event s, .writeDone k (writeResult len s.sendStatus).1 (writeResult len s.sendStatus).2, ?_, ?_, .inr ⟨_, _, rfl⟩⟩
      · unfold step; simp [h.ub, hu, a2]
      · unfold event writtenCallback writeResult
        by_cases h0 : s.sendStatus < 0 <;> simp [h0, a1, a5, a6, a7]
  · exact .inl (h.hist.old k hk hc)

/-- The bytes of all packets delivered by the network stack. -/
def received (l : List Obs) : Bytes := l.flatMap fun o => match o with
  | .packet b => b
  | _ => []

/-- The bytes handed to the read handlers. -/
def delivered (l : List Obs) : Bytes := l.flatMap fun o => match o with
  | .readDone _ _ b => b
  | _ => []

/-- In addition to `Rules`, no packet is longer than the room in the buffer. -/
def RulesFit (s : St) (m : Move) : Prop := Rules s m ∧ ∀ b, m = .packet b → b.length ≤ s.room

theorem received_snoc (l : List Obs) (o : Obs) : received (l ++ [o]) = received l ++ (match o with | .packet b => b | _ => []) := by
  unfold received; rw [List.flatMap_append]; cases o <;> simp

theorem delivered_snoc (l : List Obs) (o : Obs) : delivered (l ++ [o]) = delivered l ++ (match o with | .readDone _ _ b => b | _ => []) := by
  unfold delivered; rw [List.flatMap_append]; cases o <;> simp

theorem Reach.rules {s : St} (h : Reach RulesFit s) : Reach Rules s := by
  induction h with
  | init => exact .init
  | step _ hr hs ih => exact .step ih hr.1 hs

/-- The bytes that wait for the event loop. -/
def waitingBytes (s : St) : Bytes := if s.queued = 1 ∧ s.cb = some .read then s.filled else []

theorem stream_inv {s : St} (h : Reach RulesFit s) : received s.log = delivered s.log ++ waitingBytes s := by
  induction h with
  | init => rfl
  | @step s s' m hre hr hs ih =>
    obtain ⟨c, hi⟩ := reach_inv hre.rules
    obtain ⟨hr, hfit⟩ := hr
    unfold step at hs
    rw [if_neg (by rw [hi.ub]; decide)] at hs
    cases m with
    | enter => dsimp only at hs; split at hs <;> cases hs; exact ih
    | leave => dsimp only at hs; split at hs <;> cases hs; exact ih
    | read space ok =>
      dsimp only at hs
      split at hs <;> cases hs
      rename_i hu
      rw [Bool.and_eq_true] at hu
      obtain ⟨rfl, h1, h2, h3⟩ := hi.idle_of hr hu.2
      have hw : waitingBytes s = [] := by unfold waitingBytes; simp [h1]
      have hw' : waitingBytes (read s space ok) = [] := by unfold waitingBytes read; cases ok <;> simp [h1]
      rw [hw', List.append_nil]
      rw [hw, List.append_nil] at ih
      cases ok
      · show received (s.log ++ [.refused s.next]) = delivered (s.log ++ [.refused s.next])
        rw [received_snoc, delivered_snoc, ih]
      · show received (s.log ++ [.read s.next space]) = delivered (s.log ++ [.read s.next space])
        rw [received_snoc, delivered_snoc, ih]
    | write len ok =>
      dsimp only at hs
      split at hs <;> cases hs
      rename_i hu
      rw [Bool.and_eq_true] at hu
      obtain ⟨rfl, h1, h2, h3⟩ := hi.idle_of hr hu.2
      have hw : waitingBytes s = [] := by unfold waitingBytes; simp [h1]
      have hw' : waitingBytes (write s len ok) = [] := by unfold waitingBytes write; cases ok <;> simp [h1]
      rw [hw', List.append_nil]
      rw [hw, List.append_nil] at ih
      cases ok
      · show received (s.log ++ [.refused s.next]) = delivered (s.log ++ [.refused s.next])
        rw [received_snoc, delivered_snoc, ih]
      · show received (s.log ++ [.write s.next len]) = delivered (s.log ++ [.write s.next len])
        rw [received_snoc, delivered_snoc, ih]
    | close =>
      dsimp only at hs
      split at hs <;> cases hs
      show received (s.log ++ [.closed]) = delivered (s.log ++ [.closed]) ++ waitingBytes s
      rw [received_snoc, delivered_snoc, ih]
      simp
    | packet b =>
      dsimp only at hs
      split at hs <;> cases hs
      rename_i hc
      obtain ⟨k, sp, q, rfl, a1, a2, a3, a4, a5, a6, a7, a8⟩ := hi.recv hc
      have hl := hfit b rfl
      have hw : waitingBytes s = [] := by unfold waitingBytes; simp [a2]
      have hw' : waitingBytes (packet s b) = b := by
        unfold waitingBytes packet
        simp [a2, a4, a7, Nat.min_eq_left hl]
      rw [hw']
      rw [hw, List.append_nil] at ih
      show received (s.log ++ [.packet b]) = delivered (s.log ++ [.packet b]) ++ b
      rw [received_snoc, delivered_snoc, ih]
      simp
    | eof =>
      dsimp only at hs
      split at hs <;> cases hs
      rename_i hc
      obtain ⟨k, sp, q, rfl, a1, a2, a3, a4, a5, a6, a7, a8⟩ := hi.recv hc
      have hw : waitingBytes s = [] := by unfold waitingBytes; simp [a2]
      have hw' : waitingBytes (eof s) = [] := by unfold waitingBytes eof; simp [a7]
      rw [hw', List.append_nil]
      rw [hw, List.append_nil] at ih
      show received (s.log ++ [.eof]) = delivered (s.log ++ [.eof])
      rw [received_snoc, delivered_snoc, ih]
    | failed e =>
      dsimp only at hs
      split at hs <;> cases hs
      rename_i hc
      obtain ⟨k, sp, q, rfl, a1, a2, a3, a4, a5, a6, a7, a8⟩ := hi.recv hc
      have hw : waitingBytes s = [] := by unfold waitingBytes; simp [a2]
      have hw' : waitingBytes (failed s e) = [] := by unfold waitingBytes failed; simp [a7]
      rw [hw', List.append_nil]
      rw [hw, List.append_nil] at ih
      show received (s.log ++ [.failed e]) = delivered (s.log ++ [.failed e])
      rw [received_snoc, delivered_snoc, ih]
    | sent status =>
      dsimp only at hs
      split at hs <;> cases hs
      rename_i hc
      have hcb : s.cb = some .written := by
        cases hi.phase with
        | writing k len z q g => exact g.2.2.2.2.1
        | idle g => rw [hc] at g; simp at g
        | got _ _ _ _ g => rw [hc] at g; simp at g
        | reading _ _ _ g => rw [hc] at g; simp at g
        | sent _ _ _ _ g => rw [hc] at g; simp at g
        | dead _ g => rw [hc] at g; simp at g
      have hw : waitingBytes s = [] := by unfold waitingBytes; simp [hcb]
      have hw' : waitingBytes (sent s status) = [] := by unfold waitingBytes sent; dsimp only; split <;> simp [hcb]
      rw [hw', List.append_nil]
      rw [hw, List.append_nil] at ih
      have hl : (sent s status).log = s.log ++ [.sent status] := by unfold sent; dsimp only; split <;> rfl
      rw [hl, received_snoc, delivered_snoc, ih]
    | event =>
      dsimp only at hs
      split at hs <;> cases hs
      rename_i hc
      simp only [ne_eq, Bool.and_eq_true, decide_eq_true_eq] at hc
      cases hi.phase with
      | idle g => exact absurd g.1 hc.2
      | reading _ _ _ g => exact absurd g.2.1 hc.2
      | writing _ _ _ _ g => exact absurd g.2.1 hc.2
      | dead _ g => exact absurd g.2.1 hc.2
      | got k sp q o h' =>
        obtain ⟨a1, a2, a3, a4, a5, a6, a7, a8⟩ := h'
        have e : event s = { s with queued := 0, user := true, log := s.log ++ [.readDone k s.readStatus s.filled] } := by
          unfold event readCallback
          simp only [a1, a5, a6, a2]
          rfl
        have hw : waitingBytes s = s.filled := by unfold waitingBytes; simp [a2, a5]
        have hw' : waitingBytes (event s) = [] := by rw [e]; unfold waitingBytes; simp
        rw [hw', List.append_nil, e]
        rw [hw] at ih
        show received (s.log ++ [.readDone k s.readStatus s.filled]) = delivered (s.log ++ [.readDone k s.readStatus s.filled])
        rw [received_snoc, delivered_snoc, ih]
        simp
      | sent k len z q h' =>
        obtain ⟨a1, a2, a3, a4, a5, a6, a7, a8, a9⟩ := h'
        have e : event s = { s with queued := 0, user := true, log := s.log ++ [.writeDone k (writeResult len s.sendStatus).1 (writeResult len s.sendStatus).2] } := by
          unfold event writtenCallback writeResult
          simp only [a1, a5, a6, a2, a7]
          by_cases h0 : s.sendStatus < 0 <;> simp [h0]
        have hw : waitingBytes s = [] := by unfold waitingBytes; simp [a5]
        have hw' : waitingBytes (event s) = [] := by rw [e]; unfold waitingBytes; simp
        rw [hw', List.append_nil, e]
        rw [hw, List.append_nil] at ih
        show received (s.log ++ [.writeDone k _ _]) = delivered (s.log ++ [.writeDone k _ _])
        rw [received_snoc, delivered_snoc, ih]

/-- C50 (within the rules of use, and when every packet fits into the buffer): the bytes handed to the read handlers are the bytes of the packets,
in order, none lost and none twice; when nothing waits in the event loop they are all of them. -/
theorem bytes_in_order_partial {s : St} (h : Reach RulesFit s) :
    delivered s.log <+: received s.log ∧ (s.queued = 0 → delivered s.log = received s.log) := by
  have hi := stream_inv h
  refine ⟨by rw [hi]; exact List.prefix_append _ _, fun hq => ?_⟩
  rw [hi]
  unfold waitingBytes
  simp [hq]

/-! ### What does not hold -/

/-- C50 fails with a read and a write at the same time, because there is one notifier for both: the packet makes the write handler be called
before anything was sent, and the read handler is never called. -/
theorem read_and_write_mixed_up : ∃ s, run initial [.enter, .read 100 true, .write 5 true, .leave, .packet [1, 2, 3], .event, .leave, .sent 5, .event, .leave] = some s ∧
    s.log = [.read 0 100, .write 1 5, .packet [1, 2, 3], .writeDone 1 SUCCESS 5, .sent 5, .writeDone 1 SUCCESS 5] ∧ s.queued = 0 ∧ s.recvCb = false := ⟨_, rfl, rfl, rfl, rfl⟩

/-- C50 fails when a packet is longer than the room in the buffer: the rest of it is lost. -/
theorem rest_of_packet_lost : ∃ s, run initial [.enter, .read 2 true, .leave, .packet [1, 2, 3], .event, .read 2 true, .leave, .packet [4], .event] = some s ∧
    delivered s.log = [1, 2, 4] ∧ received s.log = [1, 2, 3, 4] := ⟨_, rfl, rfl, rfl⟩

/-- C50 fails when the socket is closed between the report of the network stack and the call of the handler: the event loop uses the closed socket. -/
theorem closed_socket_used : ∃ s, run initial [.enter, .read 2 true, .packet [1], .close, .leave, .event] = some s ∧ s.ub = true := ⟨_, rfl, rfl⟩

/-- A write of which the network stack took only a part is reported as a whole. -/
theorem short_write_reported_whole : ∃ s, run initial [.enter, .write 5 true, .leave, .sent 1, .event] = some s ∧
    s.log = [.write 0 5, .sent 1, .writeDone 0 SUCCESS 5] := ⟨_, rfl, rfl⟩

/-- A write whose only report is 0 is never answered (see socket.c 133-137), for any number of such reports. -/
theorem zero_never_answered (z : Nat) : ∀ s, s.sendCb = true → s.ub = false → ∃ s', run s (List.replicate z (.sent 0)) = some s' ∧ s'.queued = s.queued ∧
    s'.log = s.log ++ List.replicate z (.sent 0) := by
  induction z with
  | zero => intro s _ _; exact ⟨s, rfl, rfl, by simp⟩
  | succ z ih =>
    intro s hs hu
    obtain ⟨s', h1, h2, h3⟩ := ih { s with log := s.log ++ [.sent 0] } hs hu
    refine ⟨s', ?_, h2, ?_⟩
    · rw [List.replicate_succ, run]
      have : step s (.sent 0) = some { s with log := s.log ++ [.sent 0] } := by unfold step; rw [if_neg (by rw [hu]; decide)]; simp [hs, sent]
      rw [this]
      exact h1
    · rw [h3, List.replicate_succ]; simp

/-! ### Non-vacuity -/

/-- Whether everything is answered, computed. -/
def allAnsweredB (l : List Obs) : Bool := l.all fun o => match o with
  | .read k _ | .write k _ => answers k l == 1
  | _ => true

theorem allAnsweredB_sound {l : List Obs} (h : allAnsweredB l = true) : AllAnswered l := by
  unfold allAnsweredB at h
  rw [List.all_eq_true] at h
  rintro k (⟨sp, hk⟩ | ⟨n, hk⟩)
  · simpa using h _ hk
  · simpa using h _ hk

/-- `RulesFit`, computed. -/
def rulesB (s : St) : Move → Bool
  | .read _ _ | .write _ _ => allAnsweredB s.log
  | .close => s.queued == 0
  | .packet b => decide (b.length ≤ s.room)
  | _ => true

/-- Run within the rules. -/
def runRules : St → List Move → Option St
  | s, [] => some s
  | s, m :: ms => if rulesB s m then (step s m).bind fun s => runRules s ms else none

theorem reach_runRules (ms : List Move) : ∀ {s s' : St}, Reach RulesFit s → runRules s ms = some s' → Reach RulesFit s' := by
  induction ms with
  | nil => intro s s' h hr; cases hr; exact h
  | cons x ms ih =>
    intro s s' h hr
    unfold runRules at hr
    split at hr
    · rename_i hb
      rw [Option.bind_eq_some_iff] at hr
      obtain ⟨t, h1, h2⟩ := hr
      refine ih (.step h ⟨?_, ?_⟩ h1) h2
      · cases x with
        | read => exact allAnsweredB_sound hb
        | write => exact allAnsweredB_sound hb
        | close => simpa [rulesB, Rules] using hb
        | _ => trivial
      · rintro b rfl
        simpa [rulesB] using hb
    · cases hr

/-- An echo server: read, write, read, and the peer closes. -/
def exampleMoves : List Move :=
  [.enter, .read 10 true, .leave, .packet [1, 2, 3], .event, .write 3 true, .leave, .sent 0, .sent 3, .event, .read 10 true, .leave, .packet [4], .event,
   .write 1 true, .leave, .sent (-104), .event, .read 10 true, .leave, .eof, .event, .close, .leave]

example : ∃ s, Reach RulesFit s ∧ s.log = [.read 0 10, .packet [1, 2, 3], .readDone 0 SUCCESS [1, 2, 3], .write 1 3, .sent 0, .sent 3, .writeDone 1 SUCCESS 3,
    .read 2 10, .packet [4], .readDone 2 SUCCESS [4], .write 3 1, .sent (-104), .writeDone 3 (-104) 0, .read 4 10, .eof, .readDone 4 EOF [], .closed] := by
  refine ⟨(runRules initial exampleMoves).getD initial, reach_runRules exampleMoves .init ?_, ?_⟩ <;> decide

end Cio.Zephyr.Socket
