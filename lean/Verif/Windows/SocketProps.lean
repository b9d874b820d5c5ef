import Verif.Windows.SocketModel
/-
Property theorems for the sockets of the Windows port (C55).
-/
namespace Cio.Windows.Socket

/-! ### Specification -/

/-- The operation whose handler is called. -/
def answerOf : Obs → Option Nat
  | .readDone k _ _ | .writeDone k _ _ | .connectDone k _ => some k
  | _ => none

/-- How often a handler of operation `k` was called. -/
def answers (k : Nat) (l : List Obs) : Nat := l.countP fun o => answerOf o = some k

/-- A read, or a write or connect, was started with number `k`. -/
def StartedR (k : Nat) (l : List Obs) : Prop := ∃ n, .read k n ∈ l
def StartedW (k : Nat) (l : List Obs) : Prop := (∃ n, .write k n ∈ l) ∨ .connect k ∈ l

/-- The operation that winsock has finished. -/
def reportOf : Obs → Option Nat
  | .received k _ | .eof k | .recvFailed k _ | .sent k _ | .sendFailed k _ | .connected k _ => some k
  | _ => none

/-- Every end of an operation that winsock reported was told to its handler. -/
def AllReported (l : List Obs) : Prop := ∀ o ∈ l, ∀ k, reportOf o = some k → answers k l = 1

/-- The rules of use under which the property holds: one read at a time, into a buffer with room; one write or connect at a time; no writing
after a failed connect; ConnectEx does not succeed at once; the socket is closed once and not used any more after that, and only when no
connect is under way and nothing that has ended waits for the event loop. -/
def Rules (s : St) : Move → Prop
  | .read space _ => .close ∉ s.log ∧ 0 < space ∧ ∀ k, StartedR k s.log → answers k s.log = 1
  | .write _ _ => .close ∉ s.log ∧ (∀ k, StartedW k s.log → answers k s.log = 1) ∧ ∀ k e, .connectDone k e ∈ s.log → e = SUCCESS
  | .connect r => .close ∉ s.log ∧ (∀ k, StartedW k s.log → answers k s.log = 1) ∧ r ≠ .atOnce
  | .close => .close ∉ s.log ∧ AllReported s.log ∧ ∀ k, .connect k ∈ s.log → answers k s.log = 1
  | _ => True

/-- States reached by moves that keep to `rules`. -/
inductive Reach (rules : St → Move → Prop) : St → Prop
  | init : Reach rules initial
  | step {s s' : St} {m : Move} (h : Reach rules s) (hr : rules s m) (hs : step s m = some s') : Reach rules s'

/-- What may be observed after `p`: handlers are told how winsock has finished their very operation, and none is called after
`cio_socket_close`; the descriptor is closed and the hook is called after `cio_socket_close` only, and once. -/
def Fits (p : List Obs) : Obs → Prop
  | .readDone k e b => .close ∉ p ∧ ((.received k b ∈ p ∧ b ≠ [] ∧ e = SUCCESS) ∨ (.eof k ∈ p ∧ e = EOF ∧ b = []) ∨ (.recvFailed k e ∈ p ∧ b = []))
  | .writeDone k e n => .close ∉ p ∧ ((.sent k n ∈ p ∧ e = SUCCESS) ∨ (.sendFailed k e ∈ p ∧ n = 0))
  | .connectDone k e => .close ∉ p ∧ .connected k e ∈ p
  | .closed => .close ∈ p ∧ .closed ∉ p
  | .hook => .closed ∈ p ∧ .hook ∉ p
  | _ => True

def Truthful (l : List Obs) : Prop := ∀ p o post, l = p ++ o :: post → Fits p o

/-! ### Invariant -/

theorem answers_snoc (k : Nat) (l : List Obs) (o : Obs) : answers k (l ++ [o]) = answers k l + if answerOf o = some k then 1 else 0 := by
  unfold answers
  rw [List.countP_append, List.countP_cons, List.countP_nil]
  simp

theorem snoc_split {α : Type} {l p post : List α} {o x : α} (h : l ++ [o] = p ++ x :: post) : (l = p ∧ o = x) ∨ ∃ post', l = p ++ x :: post' := by
  rcases List.append_eq_append_iff.mp h with ⟨c, h1, h2⟩ | ⟨c, h1, h2⟩
  · cases c with
    | nil =>
      simp only [List.nil_append, List.append_nil, List.cons.injEq] at h1 h2
      exact .inl ⟨h1.symm, h2.1⟩
    | cons y ys => simp at h2
  · cases c with
    | nil =>
      simp only [List.nil_append, List.append_nil, List.cons.injEq] at h1 h2
      exact .inl ⟨h1, h2.1.symm⟩
    | cons y ys =>
      simp only [List.cons_append, List.cons.injEq] at h2
      obtain ⟨rfl, rfl⟩ := h2
      exact .inr ⟨ys, h1⟩

theorem Truthful.snoc {l : List Obs} (h : Truthful l) {o : Obs} (ho : Fits l o) : Truthful (l ++ [o]) := by
  intro p x post hl
  rcases snoc_split hl with ⟨rfl, rfl⟩ | ⟨q, hq⟩
  · exact ho
  · exact h p x q hq

/-- The operation that uses an `OVERLAPPED`. -/
def Slot.op {R : Type} : Slot R → Option Nat
  | .idle => none
  | .pending k | .done k _ => some k

/-- The result that waits for the event loop is the one winsock has reported. -/
def RDone (k : Nat) (l : List Obs) : RRes → Prop
  | .aborted => .close ∈ l
  | .data b => .close ∉ l ∧ ((.received k b ∈ l ∧ b ≠ []) ∨ (.eof k ∈ l ∧ b = []))
  | .err e => .close ∉ l ∧ .recvFailed k e ∈ l

def WDone (k : Nat) (conn : Bool) (l : List Obs) : WRes → Prop
  | .aborted => .close ∈ l ∧ conn = false
  | .ok n => .close ∉ l ∧ (conn = true → .connected k SUCCESS ∈ l) ∧ (conn = false → .sent k n ∈ l)
  | .err e => .close ∉ l ∧ e ≠ SUCCESS ∧ (conn = true → .connected k e ∈ l) ∧ (conn = false → .sendFailed k e ∈ l)

structure RInv (sl : Slot RRes) (use : Nat) (hd : Option Nat) (sp : Nat) (l : List Obs) : Prop where
  idle : sl = .idle → use = 0
  cur : ∀ k, sl.op = some k → StartedR k l ∧ answers k l = 0 ∧ use = 1 ∧ hd = some k
  pend : ∀ k, sl = .pending k → .close ∉ l ∧ 0 < sp
  done : ∀ k r, sl = .done k r → RDone k l r
  old : .close ∉ l → ∀ k, StartedR k l → sl.op ≠ some k → answers k l = 1

structure WInv (sl : Slot WRes) (use : Nat) (wh ch : Option Nat) (conn : Bool) (cb : Cb) (l : List Obs) : Prop where
  idle : sl = .idle → use = 0
  cur : ∀ k, sl.op = some k → StartedW k l ∧ answers k l = 0 ∧ use = 1
  kindC : ∀ k, sl.op = some k → conn = true → .connect k ∈ l ∧ ch = some k ∧ cb = .connect
  kindW : ∀ k, sl.op = some k → conn = false → wh = some k ∧ cb = .write ∧ ∃ n, .write k n ∈ l
  pend : ∀ k, sl = .pending k → .close ∉ l
  done : ∀ k r, sl = .done k r → WDone k conn l r
  old : .close ∉ l → ∀ k, StartedW k l → sl.op ≠ some k → answers k l = 1
  ready : sl = .idle → (∀ k e, .connectDone k e ∈ l → e = SUCCESS) → cb = .write

structure Base (next : Nat) (l : List Obs) : Prop where
  lt : ∀ k, StartedR k l ∨ StartedW k l → k < next
  not : ∀ k, next ≤ k → answers k l = 0
  once : ∀ k, answers k l ≤ 1
  disj : ∀ k, StartedR k l → StartedW k l → False
  truth : Truthful l
  ans : ∀ k, ¬ StartedR k l → ¬ StartedW k l → answers k l = 0
  kinds : ∀ k n, .write k n ∈ l → .connect k ∈ l → False

structure Inv (s : St) : Prop where
  ub : s.ub = false
  stk : s.stack = [] ∨ s.stack = [.user]
  base : Base s.next s.log
  r : RInv s.rSlot s.rUse s.rHandler s.rSpace s.log
  w : WInv s.wSlot s.wUse s.wHandler s.cHandler s.wConn s.cb s.log
  closing : .close ∈ s.log → s.alive = true → s.rSlot ≠ .idle ∨ s.wSlot ≠ .idle
  dead : s.alive = false → .close ∈ s.log ∧ s.rSlot = .idle ∧ s.wSlot = .idle
  gone : s.alive = true → .closed ∉ s.log ∧ .hook ∉ s.log
  went : s.alive = false → .closed ∈ s.log ∧ .hook ∈ s.log

theorem startedR_snoc (k : Nat) (l : List Obs) (o : Obs) : StartedR k (l ++ [o]) ↔ StartedR k l ∨ ∃ n, o = .read k n := by
  unfold StartedR
  simp only [List.mem_append, List.mem_singleton]
  constructor
  · rintro ⟨n, h | h⟩
    · exact .inl ⟨n, h⟩
    · exact .inr ⟨n, h.symm⟩
  · rintro (⟨n, h⟩ | ⟨n, h⟩)
    · exact ⟨n, .inl h⟩
    · exact ⟨n, .inr h.symm⟩

theorem startedW_snoc (k : Nat) (l : List Obs) (o : Obs) : StartedW k (l ++ [o]) ↔ StartedW k l ∨ (∃ n, o = .write k n) ∨ o = .connect k := by
  unfold StartedW
  simp only [List.mem_append, List.mem_singleton]
  constructor
  · rintro (⟨n, h | h⟩ | h | h)
    · exact .inl (.inl ⟨n, h⟩)
    · exact .inr (.inl ⟨n, h.symm⟩)
    · exact .inl (.inr h)
    · exact .inr (.inr h.symm)
  · rintro ((⟨n, h⟩ | h) | ⟨n, h⟩ | h)
    · exact .inl ⟨n, .inl h⟩
    · exact .inr (.inl h)
    · exact .inl ⟨n, .inr h.symm⟩
    · exact .inr (.inr h.symm)

/-- Neither a start nor an answer. -/
def Plain (o : Obs) : Prop := (∀ k n, o ≠ .read k n) ∧ (∀ k n, o ≠ .write k n) ∧ (∀ k, o ≠ .connect k) ∧ answerOf o = none

theorem Base.grow {n : Nat} {l : List Obs} (h : Base n l) : Base (n + 1) l :=
  ⟨fun k hk => Nat.lt_succ_of_lt (h.lt k hk), fun k hk => h.not k (by omega), h.once, h.disj, h.truth, h.ans, h.kinds⟩

theorem Base.plain {n : Nat} {l : List Obs} (h : Base n l) {o : Obs} (ho : Plain o) (hf : Fits l o) : Base n (l ++ [o]) := by
  obtain ⟨h1, h2, h3, h4⟩ := ho
  have hr : ∀ k, StartedR k (l ++ [o]) → StartedR k l := fun k hk => by
    rcases (startedR_snoc ..).mp hk with hk | ⟨m, hk⟩
    · exact hk
    · exact absurd hk (h1 k m)
  have hw : ∀ k, StartedW k (l ++ [o]) → StartedW k l := fun k hk => by
    rcases (startedW_snoc ..).mp hk with hk | ⟨m, hk⟩ | hk
    · exact hk
    · exact absurd hk (h2 k m)
    · exact absurd hk (h3 k)
  have ha : ∀ k, answers k (l ++ [o]) = answers k l := fun k => by rw [answers_snoc, h4]; simp
  exact ⟨fun k hk => h.lt k (hk.imp (hr k) (hw k)), fun k hk => by rw [ha]; exact h.not k hk, fun k => by rw [ha]; exact h.once k,
    fun k a b => h.disj k (hr k a) (hw k b), h.truth.snoc hf,
    fun k a b => by rw [ha]; exact h.ans k (fun x => a ((startedR_snoc ..).mpr (.inl x))) (fun x => b ((startedW_snoc ..).mpr (.inl x))),
    fun k m a b => h.kinds k m ((List.mem_append.mp a).resolve_right (by simpa using fun e => h2 k m e.symm)) ((List.mem_append.mp b).resolve_right (by simpa using fun e => h3 k e.symm))⟩

/-- A new operation. -/
theorem Base.start {n : Nat} {l : List Obs} (h : Base n l) {o : Obs} (ho : (∃ m, o = .read n m) ∨ (∃ m, o = .write n m) ∨ o = .connect n) :
    Base (n + 1) (l ++ [o]) := by
  have h4 : answerOf o = none := by rcases ho with ⟨m, rfl⟩ | ⟨m, rfl⟩ | rfl <;> rfl
  have hf : Fits l o := by rcases ho with ⟨m, rfl⟩ | ⟨m, rfl⟩ | rfl <;> trivial
  have ha : ∀ k, answers k (l ++ [o]) = answers k l := fun k => by rw [answers_snoc, h4]; simp
  have hr : ∀ k, StartedR k (l ++ [o]) → StartedR k l ∨ (k = n ∧ ∃ m, o = .read n m) := fun k hk => by
    rcases (startedR_snoc ..).mp hk with hk | ⟨m, hk⟩
    · exact .inl hk
    · rcases ho with ⟨m', rfl⟩ | ⟨m', rfl⟩ | rfl
      · cases hk; exact .inr ⟨rfl, m, rfl⟩
      · cases hk
      · cases hk
  have hw : ∀ k, StartedW k (l ++ [o]) → StartedW k l ∨ (k = n ∧ ∀ m, o ≠ .read n m) := fun k hk => by
    rcases (startedW_snoc ..).mp hk with hk | ⟨m, hk⟩ | hk
    · exact .inl hk
    · rcases ho with ⟨m', rfl⟩ | ⟨m', rfl⟩ | rfl
      · cases hk
      · cases hk; exact .inr ⟨rfl, by simp⟩
      · cases hk
    · rcases ho with ⟨m', rfl⟩ | ⟨m', rfl⟩ | rfl
      · cases hk
      · cases hk
      · cases hk; exact .inr ⟨rfl, by simp⟩
  refine ⟨fun k hk => ?_, fun k hk => by rw [ha]; exact h.not k (by omega), fun k => by rw [ha]; exact h.once k, fun k a b => ?_, h.truth.snoc hf,
    fun k a b => by rw [ha]; exact h.ans k (fun x => a ((startedR_snoc ..).mpr (.inl x))) (fun x => b ((startedW_snoc ..).mpr (.inl x))), fun k m a b => ?_⟩
  · rcases hk with hk | hk
    · rcases hr k hk with hk | ⟨rfl, -⟩
      · have := h.lt k (.inl hk); omega
      · omega
    · rcases hw k hk with hk | ⟨rfl, -⟩
      · have := h.lt k (.inr hk); omega
      · omega
  · rcases hr k a with a | ⟨rfl, m, a⟩ <;> rcases hw k b with b | ⟨e, b⟩
    · exact h.disj k a b
    · subst e; have := h.lt k (.inl a); omega
    · have := h.lt k (.inr b); omega
    · exact b m a
  · simp only [List.mem_append, List.mem_singleton] at a b
    rcases a with a | a <;> rcases b with b | b
    · exact h.kinds k m a b
    · have := h.lt k (.inr (.inl ⟨m, a⟩))
      subst b; rcases ho with ⟨m, hx⟩ | ⟨m, hx⟩ | hx <;> cases hx; omega
    · have := h.lt k (.inr (.inr b))
      subst a; rcases ho with ⟨m, hx⟩ | ⟨m, hx⟩ | hx <;> cases hx; omega
    · rw [← a] at b; cases b

/-- An operation is answered. -/
theorem Base.answer {n k : Nat} {l : List Obs} (h : Base n l) {o : Obs} (ho : answerOf o = some k) (hk : StartedR k l ∨ StartedW k l)
    (h0 : answers k l = 0) (hf : Fits l o) : Base n (l ++ [o]) := by
  have hr : ∀ j, StartedR j (l ++ [o]) → StartedR j l := fun j hj => by
    rcases (startedR_snoc ..).mp hj with hj | ⟨m, rfl⟩
    · exact hj
    · cases ho
  have hw : ∀ j, StartedW j (l ++ [o]) → StartedW j l := fun j hj => by
    rcases (startedW_snoc ..).mp hj with hj | ⟨m, rfl⟩ | rfl
    · exact hj
    · cases ho
    · cases ho
  refine ⟨fun j hj => h.lt j (hj.imp (hr j) (hw j)), fun j hj => ?_, fun j => ?_, fun j a b => h.disj j (hr j a) (hw j b), h.truth.snoc hf, fun j a b => ?_,
    fun j m a b => h.kinds j m ((List.mem_append.mp a).resolve_right (by rw [List.mem_singleton]; rintro rfl; cases ho)) ((List.mem_append.mp b).resolve_right (by rw [List.mem_singleton]; rintro rfl; cases ho))⟩
  · rw [answers_snoc, ho, h.not j hj]
    have := h.lt k hk
    rw [if_neg (by simp; omega)]
  · rw [answers_snoc, ho]
    by_cases e : k = j
    · subst e; simp [h0]
    · rw [if_neg (by simpa using e)]; exact h.once j
  · replace a : ¬ StartedR j l := fun x => a ((startedR_snoc ..).mpr (.inl x))
    replace b : ¬ StartedW j l := fun x => b ((startedW_snoc ..).mpr (.inl x))
    rw [answers_snoc, ho, if_neg (fun e => by cases e; exact hk.elim a b), h.ans j a b]

theorem RDone.mono {k : Nat} {l : List Obs} {r : RRes} (h : RDone k l r) {o : Obs} (ho : o ≠ .close) : RDone k (l ++ [o]) r := by
  have hc : .close ∉ l → .close ∉ l ++ [o] := fun hn hx => by
    simp only [List.mem_append, List.mem_singleton] at hx
    exact hx.elim hn (fun hx => ho hx.symm)
  cases r with
  | aborted => exact List.mem_append_left _ h
  | data b => exact ⟨hc h.1, h.2.imp (fun g => ⟨List.mem_append_left _ g.1, g.2⟩) (fun g => ⟨List.mem_append_left _ g.1, g.2⟩)⟩
  | err e => exact ⟨hc h.1, List.mem_append_left _ h.2⟩

theorem WDone.mono {k : Nat} {c : Bool} {l : List Obs} {r : WRes} (h : WDone k c l r) {o : Obs} (ho : o ≠ .close) : WDone k c (l ++ [o]) r := by
  have hc : .close ∉ l → .close ∉ l ++ [o] := fun hn hx => by
    simp only [List.mem_append, List.mem_singleton] at hx
    exact hx.elim hn (fun hx => ho hx.symm)
  cases r with
  | aborted => exact ⟨List.mem_append_left _ h.1, h.2⟩
  | ok n => exact ⟨hc h.1, fun g => List.mem_append_left _ (h.2.1 g), fun g => List.mem_append_left _ (h.2.2 g)⟩
  | err e => exact ⟨hc h.1, h.2.1, fun g => List.mem_append_left _ (h.2.2.1 g), fun g => List.mem_append_left _ (h.2.2.2 g)⟩

theorem notClose {l : List Obs} {o : Obs} (h : .close ∉ l ++ [o]) : .close ∉ l := fun hx => h (List.mem_append_left _ hx)

theorem notClose' {l : List Obs} {o : Obs} (h : .close ∉ l) (ho : o ≠ .close) : .close ∉ l ++ [o] := fun hx => by
  simp only [List.mem_append, List.mem_singleton] at hx
  exact hx.elim h (fun hx => ho hx.symm)

/-- Something that does not concern the read event. -/
theorem RInv.other {sl : Slot RRes} {use sp : Nat} {hd : Option Nat} {l : List Obs} (h : RInv sl use hd sp l) {o : Obs} (hc : o ≠ .close)
    (hr : ∀ k n, o ≠ .read k n) (ha : ∀ k, answerOf o = some k → ¬ StartedR k l) : RInv sl use hd sp (l ++ [o]) := by
  have hs : ∀ k, StartedR k (l ++ [o]) → StartedR k l := fun k hk => by
    rcases (startedR_snoc ..).mp hk with hk | ⟨m, hk⟩
    · exact hk
    · exact absurd hk (hr k m)
  have hn : ∀ k, StartedR k l → answers k (l ++ [o]) = answers k l := fun k hk => by
    rw [answers_snoc, if_neg (fun g => ha k g hk)]; rfl
  refine ⟨h.idle, fun k hk => ?_, fun k hk => ⟨notClose' (h.pend k hk).1 hc, (h.pend k hk).2⟩, fun k r hk => (h.done k r hk).mono hc, fun hcl k hk hne => ?_⟩
  · obtain ⟨a, b, c⟩ := h.cur k hk
    exact ⟨(startedR_snoc ..).mpr (.inl a), by rw [hn k a]; exact b, c⟩
  · rw [hn k (hs k hk)]; exact h.old (notClose hcl) k (hs k hk) hne

/-- Something that does not concern the write event. -/
theorem WInv.other {sl : Slot WRes} {use : Nat} {wh ch : Option Nat} {conn : Bool} {cb : Cb} {l : List Obs} (h : WInv sl use wh ch conn cb l) {o : Obs}
    (hc : o ≠ .close) (hr : ∀ k n, o ≠ .write k n) (hr' : ∀ k, o ≠ .connect k) (ha : ∀ k, answerOf o = some k → ¬ StartedW k l)
    (hd : ∀ k e, o ≠ .connectDone k e) : WInv sl use wh ch conn cb (l ++ [o]) := by
  have hs : ∀ k, StartedW k (l ++ [o]) → StartedW k l := fun k hk => by
    rcases (startedW_snoc ..).mp hk with hk | ⟨m, hk⟩ | hk
    · exact hk
    · exact absurd hk (hr k m)
    · exact absurd hk (hr' k)
  have hn : ∀ k, StartedW k l → answers k (l ++ [o]) = answers k l := fun k hk => by
    rw [answers_snoc, if_neg (fun g => ha k g hk)]; rfl
  refine ⟨h.idle, fun k hk => ?_, fun k hk hcn => ?_, fun k hk hcn => (h.kindW k hk hcn).imp id (fun g => g.imp id fun g => g.imp fun _ => List.mem_append_left _), fun k hk => notClose' (h.pend k hk) hc, fun k r hk => (h.done k r hk).mono hc, fun hcl k hk hne => ?_, fun hi hall => ?_⟩
  · obtain ⟨a, b, c⟩ := h.cur k hk
    exact ⟨(startedW_snoc ..).mpr (.inl a), by rw [hn k a]; exact b, c⟩
  · obtain ⟨a, b⟩ := h.kindC k hk hcn
    exact ⟨List.mem_append_left _ a, b⟩
  · rw [hn k (hs k hk)]; exact h.old (notClose hcl) k (hs k hk) hne
  · exact h.ready hi fun k e hm => hall k e (List.mem_append_left _ hm)

/-- The read event is free. -/
theorem RInv.free {sl : Slot RRes} {use sp : Nat} {hd : Option Nat} {l : List Obs} (h : RInv sl use hd sp l)
    (ha : ∀ k, StartedR k l → answers k l = 1) : sl = .idle ∧ use = 0 := by
  have : sl = .idle := by
    cases hsl : sl with
    | idle => rfl
    | pending k =>
      obtain ⟨a, b, -⟩ := h.cur k (by rw [hsl]; rfl)
      rw [ha k a] at b; cases b
    | done k r =>
      obtain ⟨a, b, -⟩ := h.cur k (by rw [hsl]; rfl)
      rw [ha k a] at b; cases b
  exact ⟨this, h.idle this⟩

theorem WInv.free {sl : Slot WRes} {use : Nat} {wh ch : Option Nat} {conn : Bool} {cb : Cb} {l : List Obs} (h : WInv sl use wh ch conn cb l)
    (ha : ∀ k, StartedW k l → answers k l = 1) : sl = .idle ∧ use = 0 := by
  have : sl = .idle := by
    cases hsl : sl with
    | idle => rfl
    | pending k =>
      obtain ⟨a, b, -⟩ := h.cur k (by rw [hsl]; rfl)
      rw [ha k a] at b; cases b
    | done k r =>
      obtain ⟨a, b, -⟩ := h.cur k (by rw [hsl]; rfl)
      rw [ha k a] at b; cases b
  exact ⟨this, h.idle this⟩

theorem answers_plain (k : Nat) (l : List Obs) {o : Obs} (h : answerOf o = none) : answers k (l ++ [o]) = answers k l := by
  rw [answers_snoc, h]; simp

/-- `.close`, `.closed` and `.hook` are not in the log if they were not and something else is added. -/
theorem gone_snoc {l : List Obs} {o : Obs} (h : Obs.closed ∉ l ∧ Obs.hook ∉ l) (h1 : o ≠ .closed) (h2 : o ≠ .hook) : Obs.closed ∉ l ++ [o] ∧ Obs.hook ∉ l ++ [o] := by
  simp only [List.mem_append, List.mem_singleton]
  exact ⟨fun hx => hx.elim h.1 (fun hx => h1 hx.symm), fun hx => hx.elim h.2 (fun hx => h2 hx.symm)⟩

/-- A report of winsock about the pending read. -/
theorem Inv.readReport {s : St} (h : Inv s) {k : Nat} (hp : s.rSlot = .pending k) {r : RRes} {o : Obs} (ho : Plain o) (hf : Fits s.log o)
    (hc : o ≠ .close) (hc1 : o ≠ .closed) (hc2 : o ≠ .hook) (hd : RDone k (s.log ++ [o]) r) :
    Inv { s with rSlot := .done k r, log := s.log ++ [o] } := by
  have ha : s.alive = true := by
    cases hx : s.alive with
    | true => rfl
    | false => have := (h.dead hx).2.1; rw [hp] at this; cases this
  have hcl := (h.r.pend k hp).1
  refine ⟨h.ub, h.stk, h.base.plain ho hf, ?_, h.w.other hc ho.2.1 ho.2.2.1 (by rw [ho.2.2.2]; simp) ?_, ?_, ?_, fun _ => gone_snoc (h.gone ha) hc1 hc2, ?_⟩
  · have h' := h.r.other (o := o) hc ho.1 (by rw [ho.2.2.2]; simp)
    refine ⟨by simp, fun j hj => h'.cur j (by rw [hp]; exact hj), by simp, fun j r' hj => ?_, fun a j b c => h'.old a j b (by rw [hp]; exact c)⟩
    cases hj; exact hd
  · intro j e hx; have := ho.2.2.2; rw [hx] at this; cases this
  · intro hx; exact absurd hx (notClose' hcl hc)
  · intro hx; rw [show s.alive = false from hx] at ha; cases ha
  · intro hx; rw [show s.alive = false from hx] at ha; cases ha

theorem Inv.writeReport {s : St} (h : Inv s) {k : Nat} (hp : s.wSlot = .pending k) {r : WRes} {o : Obs} (ho : Plain o) (hf : Fits s.log o)
    (hc : o ≠ .close) (hc1 : o ≠ .closed) (hc2 : o ≠ .hook) (hd : WDone k s.wConn (s.log ++ [o]) r) :
    Inv { s with wSlot := .done k r, log := s.log ++ [o] } := by
  have ha : s.alive = true := by
    cases hx : s.alive with
    | true => rfl
    | false => have := (h.dead hx).2.2; rw [hp] at this; cases this
  have hcl := h.w.pend k hp
  refine ⟨h.ub, h.stk, h.base.plain ho hf, h.r.other hc ho.1 (by rw [ho.2.2.2]; simp), ?_, ?_, ?_, fun _ => gone_snoc (h.gone ha) hc1 hc2, ?_⟩
  · have h' := h.w.other (o := o) hc ho.2.1 ho.2.2.1 (by rw [ho.2.2.2]; simp) (by intro j e hx; have := ho.2.2.2; rw [hx] at this; cases this)
    refine ⟨by simp, fun j hj => h'.cur j (by rw [hp]; exact hj), fun j hj => h'.kindC j (by rw [hp]; exact hj), fun j hj => h'.kindW j (by rw [hp]; exact hj), by simp, fun j r' hj => ?_, fun a j b c => h'.old a j b (by rw [hp]; exact c), by simp⟩
    cases hj; exact hd
  · intro hx; exact absurd hx (notClose' hcl hc)
  · intro hx; rw [show s.alive = false from hx] at ha; cases ha
  · intro hx; rw [show s.alive = false from hx] at ha; cases ha

/-- The read handler is called. -/
theorem Inv.readAnswer {s : St} (h : Inv s) {k : Nat} {r : RRes} (hp : s.rSlot = .done k r) (hst : s.stack = []) {e : Err} {b : Bytes}
    (hf : Fits s.log (.readDone k e b)) : Inv { s with rSlot := .idle, rUse := s.rUse - 1, log := s.log ++ [.readDone k e b], stack := [.user] } := by
  have ha : s.alive = true := by
    cases hx : s.alive with
    | true => rfl
    | false => have := (h.dead hx).2.1; rw [hp] at this; cases this
  obtain ⟨c1, c2, c3, c4⟩ := h.r.cur k (by rw [hp]; rfl)
  have hcl : .close ∉ s.log := hf.1
  refine ⟨h.ub, .inr rfl, h.base.answer rfl (.inl c1) c2 hf, ?_, h.w.other (by simp) (by simp) (by simp) ?_ (by simp), ?_, ?_, fun _ => gone_snoc (h.gone ha) (by simp) (by simp), ?_⟩
  · refine ⟨fun _ => by show s.rUse - 1 = 0; omega, by simp [Slot.op], by simp, by simp, fun _ j hj _ => ?_⟩
    have hj' : StartedR j s.log := ((startedR_snoc ..).mp hj).resolve_right (by simp)
    rw [answers_snoc]
    by_cases e' : k = j
    · subst e'; simp [answerOf, c2]
    · rw [if_neg (by simpa [answerOf] using e')]
      exact h.r.old hcl j hj' (by rw [hp]; simpa [Slot.op] using e')
  · intro j hj hw; cases hj; exact h.base.disj k c1 hw
  · intro hx; exact absurd hx (notClose' hcl (by simp))
  · intro hx; rw [show s.alive = false from hx] at ha; cases ha
  · intro hx; rw [show s.alive = false from hx] at ha; cases ha

/-- A handler of the write event is called. -/
theorem Inv.writeAnswer {s : St} (h : Inv s) {k : Nat} {r : WRes} (hp : s.wSlot = .done k r) {o : Obs} (ho : answerOf o = some k) (hf : Fits s.log o)
    (hcl : .close ∉ s.log) (cb : Cb) (hcb : (∀ j e, .connectDone j e ∈ s.log ++ [o] → e = SUCCESS) → cb = .write) :
    Inv { s with wSlot := .idle, wUse := s.wUse - 1, cb := cb, log := s.log ++ [o], stack := [.user] } := by
  have ha : s.alive = true := by
    cases hx : s.alive with
    | true => rfl
    | false => have := (h.dead hx).2.2; rw [hp] at this; cases this
  obtain ⟨c1, c2, c3⟩ := h.w.cur k (by rw [hp]; rfl)
  have hc : o ≠ .close := by rintro rfl; cases ho
  refine ⟨h.ub, .inr rfl, h.base.answer ho (.inr c1) c2 hf, h.r.other hc (by rintro k n rfl; cases ho) ?_, ?_, ?_, ?_, fun _ => gone_snoc (h.gone ha) (by rintro rfl; cases ho) (by rintro rfl; cases ho), ?_⟩
  · intro j hj hr; rw [ho] at hj; cases hj; exact h.base.disj k hr c1
  · refine ⟨fun _ => by show s.wUse - 1 = 0; omega, by simp [Slot.op], by simp [Slot.op], by simp [Slot.op], by simp, by simp, fun _ j hj _ => ?_, fun _ hall => hcb hall⟩
    have hj' : StartedW j s.log := ((startedW_snoc ..).mp hj).resolve_right (by
      rintro (⟨n, rfl⟩ | rfl) <;> cases ho)
    rw [answers_snoc, ho]
    by_cases e' : k = j
    · subst e'; simp [c2]
    · rw [if_neg (by simpa using e')]
      exact h.w.old hcl j hj' (by rw [hp]; simpa [Slot.op] using e')
  · intro hx; exact absurd hx (notClose' hcl hc)
  · intro hx; rw [show s.alive = false from hx] at ha; cases ha
  · intro hx; rw [show s.alive = false from hx] at ha; cases ha

/-- `try_free` when the socket is being closed; `s` is the state in which the slots may already be free. -/
theorem free_inv {s : St} (ub : s.ub = false) (stk : s.stack = [] ∨ s.stack = [.user]) (base : Base s.next s.log)
    (r : RInv s.rSlot s.rUse s.rHandler s.rSpace s.log) (w : WInv s.wSlot s.wUse s.wHandler s.cHandler s.wConn s.cb s.log)
    (hc : .close ∈ s.log) (ha : s.alive = true) (gone : .closed ∉ s.log ∧ .hook ∉ s.log) : Inv (tryFree s) := by
  unfold tryFree
  by_cases hu : s.rUse = 0 ∧ s.wUse = 0
  · rw [if_pos hu]
    have hr : s.rSlot = .idle := by
      cases hsl : s.rSlot with
      | idle => rfl
      | pending k => have := (r.cur k (by rw [hsl]; rfl)).2.2.1; omega
      | done k x => have := (r.cur k (by rw [hsl]; rfl)).2.2.1; omega
    have hw : s.wSlot = .idle := by
      cases hsl : s.wSlot with
      | idle => rfl
      | pending k => have := (w.cur k (by rw [hsl]; rfl)).2.2; omega
      | done k x => have := (w.cur k (by rw [hsl]; rfl)).2.2; omega
    have e : s.log ++ [.closed, .hook] = s.log ++ [.closed] ++ [.hook] := by simp
    have p1 : Plain .closed := ⟨by simp, by simp, by simp, rfl⟩
    have p2 : Plain .hook := ⟨by simp, by simp, by simp, rfl⟩
    have b : Base s.next (s.log ++ [.closed, .hook]) := by
      rw [e]
      refine (base.plain p1 ⟨hc, gone.1⟩).plain p2 ⟨by simp, ?_⟩
      simp [gone.2]
    have r' : RInv s.rSlot s.rUse s.rHandler s.rSpace (s.log ++ [.closed, .hook]) := by
      rw [e]; exact (r.other (by simp) (by simp) (by simp [answerOf])).other (by simp) (by simp) (by simp [answerOf])
    have w' : WInv s.wSlot s.wUse s.wHandler s.cHandler s.wConn s.cb (s.log ++ [.closed, .hook]) := by
      rw [e]; exact (w.other (by simp) (by simp) (by simp) (by simp [answerOf]) (by simp)).other (by simp) (by simp) (by simp) (by simp [answerOf]) (by simp)
    exact ⟨ub, stk, b, r', w', by simp, fun _ => ⟨by simp [hc], hr, hw⟩, by simp, by simp⟩
  · rw [if_neg hu]
    refine ⟨ub, stk, base, r, w, fun _ _ => ?_, fun hx => ?_, fun _ => gone, fun hx => ?_⟩
    · by_cases hr : s.rSlot = .idle
      · by_cases hw : s.wSlot = .idle
        · exact absurd ⟨r.idle hr, w.idle hw⟩ hu
        · exact .inr hw
      · exact .inl hr
    · rw [ha] at hx; cases hx
    · rw [ha] at hx; cases hx

theorem step_inv {s s' : St} {m : Move} (h : Inv s) (hr : Rules s m) (hs : step s m = some s') : Inv s' := by
  unfold step at hs
  rw [if_neg (by rw [h.ub]; decide)] at hs
  cases m with
  | enter =>
    dsimp only at hs
    split at hs <;> cases hs
    exact ⟨h.ub, .inr rfl, h.base, h.r, h.w, h.closing, h.dead, h.gone, h.went⟩
  | leave =>
    dsimp only at hs
    split at hs <;> cases hs
    rename_i k hst
    refine ⟨h.ub, .inl ?_, h.base, h.r, h.w, h.closing, h.dead, h.gone, h.went⟩
    show k = []
    rcases h.stk with g | g <;> rw [g] at hst <;> cases hst
    rfl
  | «continue» =>
    dsimp only at hs
    split at hs <;> cases hs
    rename_i k hst
    rcases h.stk with g | g <;> rw [g] at hst <;> cases hst
  | read space ok =>
    dsimp only at hs
    split at hs <;> cases hs
    rename_i ha
    obtain ⟨hcl, hsp, hans⟩ := hr
    obtain ⟨hi, hu⟩ := h.r.free hans
    have nd : ∀ {P : Prop}, s.alive = false → P := fun hx => by rw [ha.2] at hx; cases hx
    cases ok with
    | true =>
      have e : read s space true = { s with next := s.next + 1, rHandler := some s.next, rSpace := space, rSlot := .pending s.next, rUse := s.rUse + 1, log := s.log ++ [.read s.next space] } := by
        simp [read, hi]
      rw [e]
      refine ⟨h.ub, h.stk, h.base.start (.inl ⟨space, rfl⟩), ?_, h.w.other (by simp) (by simp) (by simp) (by simp [answerOf]) (by simp), ?_, nd, fun hx => gone_snoc (h.gone hx) (by simp) (by simp), nd⟩
      · refine ⟨by simp, fun k hk => ?_, fun k hk => ⟨notClose' hcl (by simp), hsp⟩, by simp, fun _ k hk hne => ?_⟩
        · cases hk
          refine ⟨(startedR_snoc ..).mpr (.inr ⟨_, rfl⟩), ?_, by show s.rUse + 1 = 1; omega, rfl⟩
          rw [answers_plain _ _ rfl]; exact h.base.not _ (Nat.le_refl _)
        · rw [answers_plain _ _ rfl]
          rcases (startedR_snoc ..).mp hk with hk | ⟨n, hk⟩
          · exact hans k hk
          · cases hk; exact absurd rfl hne
      · intro hx; exact absurd hx (notClose' hcl (by simp))
    | false =>
      have e : read s space false = { s with next := s.next + 1, rHandler := some s.next, rSpace := space, log := s.log ++ [.refused s.next] } := by
        simp [read, hi]
      rw [e]
      refine ⟨h.ub, h.stk, (Base.plain (o := .refused s.next) h.base ⟨by simp, by simp, by simp, rfl⟩ trivial).grow, ?_, h.w.other (by simp) (by simp) (by simp) (by simp [answerOf]) (by simp), ?_, nd, fun hx => gone_snoc (h.gone hx) (by simp) (by simp), nd⟩
      · have h' := h.r.other (o := .refused s.next) (by simp) (by simp) (by simp [answerOf])
        refine ⟨h'.idle, fun k hk => ?_, fun k hk => ?_, fun k r hk => ?_, h'.old⟩
        · replace hk : s.rSlot.op = some k := hk; rw [hi] at hk; cases hk
        · replace hk : s.rSlot = .pending k := hk; rw [hi] at hk; cases hk
        · replace hk : s.rSlot = .done k r := hk; rw [hi] at hk; cases hk
      · intro hx; exact absurd hx (notClose' hcl (by simp))
  | write len ok =>
    dsimp only at hs
    split at hs <;> cases hs
    rename_i ha
    obtain ⟨hcl, hans, hcon⟩ := hr
    obtain ⟨hi, hu⟩ := h.w.free hans
    have hcb := h.w.ready hi hcon
    have nd : ∀ {P : Prop}, s.alive = false → P := fun hx => by rw [ha.2] at hx; cases hx
    cases ok with
    | true =>
      have e : write s len true = { s with next := s.next + 1, wHandler := some s.next, wLen := len, wConn := false, wSlot := .pending s.next, wUse := s.wUse + 1, log := s.log ++ [.write s.next len] } := by
        simp [write, hi]
      rw [e]
      refine ⟨h.ub, h.stk, h.base.start (.inr (.inl ⟨len, rfl⟩)), h.r.other (by simp) (by simp) (by simp [answerOf]), ?_, ?_, nd, fun hx => gone_snoc (h.gone hx) (by simp) (by simp), nd⟩
      · refine ⟨by simp, fun k hk => ?_, by simp, fun k hk _ => ⟨hk, hcb, len, by cases hk; simp⟩, fun k hk => notClose' hcl (by simp), by simp, fun _ k hk hne => ?_, by simp⟩
        · cases hk
          refine ⟨(startedW_snoc ..).mpr (.inr (.inl ⟨_, rfl⟩)), ?_, by show s.wUse + 1 = 1; omega⟩
          rw [answers_plain _ _ rfl]; exact h.base.not _ (Nat.le_refl _)
        · rw [answers_plain _ _ rfl]
          rcases (startedW_snoc ..).mp hk with hk | ⟨n, hk⟩ | hk
          · exact hans k hk
          · cases hk; exact absurd rfl hne
          · cases hk
      · intro hx; exact absurd hx (notClose' hcl (by simp))
    | false =>
      have e : write s len false = { s with next := s.next + 1, wHandler := some s.next, wLen := len, wConn := false, log := s.log ++ [.refused s.next] } := by
        simp [write, hi]
      rw [e]
      refine ⟨h.ub, h.stk, (Base.plain (o := .refused s.next) h.base ⟨by simp, by simp, by simp, rfl⟩ trivial).grow, h.r.other (by simp) (by simp) (by simp [answerOf]), ?_, ?_, nd, fun hx => gone_snoc (h.gone hx) (by simp) (by simp), nd⟩
      · have h' := h.w.other (o := .refused s.next) (by simp) (by simp) (by simp) (by simp [answerOf]) (by simp)
        refine ⟨h'.idle, fun k hk => ?_, fun k hk => ?_, fun k hk => ?_, fun k hk => ?_, fun k r hk => ?_, h'.old, fun _ _ => hcb⟩
        · replace hk : s.wSlot.op = some k := hk; rw [hi] at hk; cases hk
        · replace hk : s.wSlot.op = some k := hk; rw [hi] at hk; cases hk
        · replace hk : s.wSlot.op = some k := hk; rw [hi] at hk; cases hk
        · replace hk : s.wSlot = .pending k := hk; rw [hi] at hk; cases hk
        · replace hk : s.wSlot = .done k r := hk; rw [hi] at hk; cases hk
      · intro hx; exact absurd hx (notClose' hcl (by simp))
  | connect r =>
    dsimp only at hs
    split at hs <;> cases hs
    rename_i ha
    obtain ⟨hcl, hans, hno⟩ := hr
    obtain ⟨hi, hu⟩ := h.w.free hans
    have nd : ∀ {P : Prop}, s.alive = false → P := fun hx => by rw [ha.2] at hx; cases hx
    cases r with
    | atOnce => exact absurd rfl hno
    | pending =>
      have e : connect s .pending = { s with next := s.next + 1, wConn := true, wSlot := .pending s.next, wUse := s.wUse + 1, cHandler := some s.next, cb := .connect, log := s.log ++ [.connect s.next] } := by
        simp [connect, hi]
      rw [e]
      refine ⟨h.ub, h.stk, h.base.start (.inr (.inr rfl)), h.r.other (by simp) (by simp) (by simp [answerOf]), ?_, ?_, nd, fun hx => gone_snoc (h.gone hx) (by simp) (by simp), nd⟩
      · refine ⟨by simp, fun k hk => ?_, fun k hk _ => ?_, by simp, fun k hk => notClose' hcl (by simp), by simp, fun _ k hk hne => ?_, by simp⟩
        · cases hk
          refine ⟨(startedW_snoc ..).mpr (.inr (.inr rfl)), ?_, by show s.wUse + 1 = 1; omega⟩
          rw [answers_plain _ _ rfl]; exact h.base.not _ (Nat.le_refl _)
        · cases hk; exact ⟨by simp, rfl, rfl⟩
        · rw [answers_plain _ _ rfl]
          rcases (startedW_snoc ..).mp hk with hk | ⟨n, hk⟩ | hk
          · exact hans k hk
          · cases hk
          · cases hk; exact absurd rfl hne
      · intro hx; exact absurd hx (notClose' hcl (by simp))
    | failed =>
      have e : connect s .failed = { s with next := s.next + 1, wConn := true, log := s.log ++ [.refused s.next] } := by
        simp [connect, hi]
      rw [e]
      refine ⟨h.ub, h.stk, (Base.plain (o := .refused s.next) h.base ⟨by simp, by simp, by simp, rfl⟩ trivial).grow, h.r.other (by simp) (by simp) (by simp [answerOf]), ?_, ?_, nd, fun hx => gone_snoc (h.gone hx) (by simp) (by simp), nd⟩
      · have h' := h.w.other (o := .refused s.next) (by simp) (by simp) (by simp) (by simp [answerOf]) (by simp)
        refine ⟨h'.idle, h'.cur, fun k hk => ?_, fun k hk => ?_, h'.pend, fun k r hk => ?_, h'.old, h'.ready⟩
        · replace hk : s.wSlot.op = some k := hk; rw [hi] at hk; cases hk
        · replace hk : s.wSlot.op = some k := hk; rw [hi] at hk; cases hk
        · replace hk : s.wSlot = .done k r := hk; rw [hi] at hk; cases hk
      · intro hx; exact absurd hx (notClose' hcl (by simp))
  | close =>
    dsimp only at hs
    split at hs <;> cases hs
    rename_i ha
    obtain ⟨hcl, hrep, hcon⟩ := hr
    unfold close
    have hcm : .close ∈ s.log ++ [.close] := by simp
    refine free_inv h.ub h.stk (h.base.plain ⟨by simp, by simp, by simp, rfl⟩ trivial) ?_ ?_ hcm ha.2 (gone_snoc (h.gone ha.2) (by simp) (by simp))
    · have hnd : ∀ k r, s.rSlot ≠ .done k r := by
        intro k r hx
        have h0 := (h.r.cur k (by rw [hx]; rfl)).2.1
        have hd := h.r.done k r hx
        cases r with
        | aborted => exact hcl hd
        | data b =>
          rcases hd.2 with g | g
          · have := hrep _ g.1 k rfl; omega
          · have := hrep _ g.1 k rfl; omega
        | err e => have := hrep _ hd.2 k rfl; omega
      have hstarted : ∀ k, StartedR k s.log → StartedR k (s.log ++ [.close]) := fun k hk => (startedR_snoc ..).mpr (.inl hk)
      refine ⟨fun hi => ?_, fun k hk => ?_, fun k hk => ?_, fun k r hk => ?_, fun hx => absurd hcm hx⟩
      · refine h.r.idle ?_
        replace hi : s.rSlot.cancel .aborted = .idle := hi
        cases hsl : s.rSlot with
        | idle => rfl
        | pending k => rw [hsl] at hi; cases hi
        | done k r => exact absurd hsl (hnd k r)
      · replace hk : (s.rSlot.cancel .aborted).op = some k := hk
        have hk' : s.rSlot.op = some k := by
          cases hsl : s.rSlot <;> rw [hsl] at hk <;> exact hk
        obtain ⟨a, b, c⟩ := h.r.cur k hk'
        exact ⟨hstarted k a, by rw [answers_plain _ _ rfl]; exact b, c⟩
      · replace hk : s.rSlot.cancel .aborted = .pending k := hk
        cases hsl : s.rSlot <;> rw [hsl] at hk <;> cases hk
      · replace hk : s.rSlot.cancel .aborted = .done k r := hk
        cases hsl : s.rSlot with
        | idle => rw [hsl] at hk; cases hk
        | pending j => rw [hsl] at hk; cases hk; exact hcm
        | done j x => exact absurd hsl (hnd j x)
    · have hnd : ∀ k r, s.wSlot ≠ .done k r := by
        intro k r hx
        have h0 := (h.w.cur k (by rw [hx]; rfl)).2.1
        have hd := h.w.done k r hx
        cases r with
        | aborted => exact hcl hd.1
        | ok n =>
          cases hcn : s.wConn with
          | true => have := hrep _ (hd.2.1 hcn) k rfl; omega
          | false => have := hrep _ (hd.2.2 hcn) k rfl; omega
        | err e =>
          cases hcn : s.wConn with
          | true => have := hrep _ (hd.2.2.1 hcn) k rfl; omega
          | false => have := hrep _ (hd.2.2.2 hcn) k rfl; omega
      have hop : ∀ k, (s.wSlot.cancel .aborted).op = some k → s.wSlot.op = some k := by
        intro k hk
        cases hsl : s.wSlot <;> rw [hsl] at hk <;> exact hk
      have hwc : ∀ k, s.wSlot.op = some k → s.wConn = false := by
        intro k hk
        cases hcn : s.wConn with
        | false => rfl
        | true =>
          have h1 := (h.w.kindC k hk hcn).1
          have h2 := (h.w.cur k hk).2.1
          rw [hcon k h1] at h2; cases h2
      have h' := h.w
      refine ⟨fun hi => ?_, fun k hk => ?_, fun k hk hcn => ?_, fun k hk hcn => (h'.kindW k (hop k hk) hcn).imp id (fun g => g.imp id fun g => g.imp fun _ => List.mem_append_left _), fun k hk => ?_, fun k r hk => ?_, fun hx => absurd hcm hx, fun hi hall => ?_⟩
      · refine h'.idle ?_
        replace hi : s.wSlot.cancel .aborted = .idle := hi
        cases hsl : s.wSlot with
        | idle => rfl
        | pending k => rw [hsl] at hi; cases hi
        | done k r => exact absurd hsl (hnd k r)
      · obtain ⟨a, b, c⟩ := h'.cur k (hop k hk)
        exact ⟨(startedW_snoc ..).mpr (.inl a), by rw [answers_plain _ _ rfl]; exact b, c⟩
      · rw [show s.wConn = true from hcn] at hwc; exact absurd (hwc k (hop k hk)) (by simp)
      · replace hk : s.wSlot.cancel .aborted = .pending k := hk
        cases hsl : s.wSlot <;> rw [hsl] at hk <;> cases hk
      · replace hk : s.wSlot.cancel .aborted = .done k r := hk
        cases hsl : s.wSlot with
        | idle => rw [hsl] at hk; cases hk
        | pending j => rw [hsl] at hk; cases hk; exact ⟨hcm, hwc k (by rw [hsl]; rfl)⟩
        | done j x => exact absurd hsl (hnd j x)
      · replace hi : s.wSlot.cancel .aborted = .idle := hi
        refine h'.ready ?_ (fun k e hm => hall k e (List.mem_append_left _ hm))
        cases hsl : s.wSlot with
        | idle => rfl
        | pending k => rw [hsl] at hi; cases hi
        | done k r => exact absurd hsl (hnd k r)
  | received b =>
    dsimp only at hs
    split at hs <;> first | contradiction | skip
    rename_i k hp
    split at hs <;> cases hs
    rename_i hb
    have hsp := (h.r.pend k hp).2
    refine h.readReport hp ⟨by simp, by simp, by simp, rfl⟩ trivial (by simp) (by simp) (by simp) ⟨notClose' (h.r.pend k hp).1 (by simp), .inl ⟨by simp, ?_⟩⟩
    intro hx; have := hb.2 hx; omega
  | eof =>
    dsimp only at hs
    split at hs <;> cases hs
    rename_i k hp
    exact h.readReport hp ⟨by simp, by simp, by simp, rfl⟩ trivial (by simp) (by simp) (by simp) ⟨notClose' (h.r.pend k hp).1 (by simp), .inr ⟨by simp, rfl⟩⟩
  | recvFailed e =>
    dsimp only at hs
    split at hs <;> first | contradiction | skip
    rename_i k hp
    split at hs <;> cases hs
    exact h.readReport hp ⟨by simp, by simp, by simp, rfl⟩ trivial (by simp) (by simp) (by simp) ⟨notClose' (h.r.pend k hp).1 (by simp), by simp⟩
  | sent n =>
    dsimp only at hs
    split at hs <;> first | contradiction | skip
    rename_i k hp hcn
    split at hs <;> cases hs
    refine h.writeReport hp ⟨by simp, by simp, by simp, rfl⟩ trivial (by simp) (by simp) (by simp) ⟨notClose' (h.w.pend k hp) (by simp), ?_, fun _ => by simp⟩
    rw [hcn]; simp
  | sendFailed e =>
    dsimp only at hs
    split at hs <;> first | contradiction | skip
    rename_i k hp hcn
    split at hs <;> cases hs
    rename_i he
    refine h.writeReport hp ⟨by simp, by simp, by simp, rfl⟩ trivial (by simp) (by simp) (by simp) ⟨notClose' (h.w.pend k hp) (by simp), ?_, ?_, fun _ => by simp⟩
    · rintro rfl; exact absurd he.1 (by decide)
    · rw [hcn]; simp
  | connected e =>
    dsimp only at hs
    split at hs <;> first | contradiction | skip
    rename_i k hp hcn
    split at hs <;> cases hs
    by_cases h0 : e = 0
    · subst h0
      rw [if_pos rfl]
      refine h.writeReport hp ⟨by simp, by simp, by simp, rfl⟩ trivial (by simp) (by simp) (by simp) ⟨notClose' (h.w.pend k hp) (by simp), fun _ => by simp [SUCCESS], ?_⟩
      rw [hcn]; simp
    · rw [if_neg h0]
      refine h.writeReport hp ⟨by simp, by simp, by simp, rfl⟩ trivial (by simp) (by simp) (by simp) ⟨notClose' (h.w.pend k hp) (by simp), h0, fun _ => by simp, ?_⟩
      rw [hcn]; simp
  | readEvent =>
    dsimp only at hs
    split at hs <;> cases hs
    rename_i k r hst hp
    have ha : s.alive = true := by
      cases hx : s.alive with
      | true => rfl
      | false => have := (h.dead hx).2.1; rw [hp] at this; cases this
    rw [if_pos ha]
    obtain ⟨c1, c2, c3, c4⟩ := h.r.cur k (by rw [hp]; rfl)
    have hd := h.r.done k r hp
    cases r with
    | aborted =>
      unfold readEvent
      refine free_inv (s := { s with rSlot := .idle, rUse := s.rUse - 1 }) h.ub h.stk h.base ?_ h.w hd ha (h.gone ha)
      exact ⟨fun _ => by show s.rUse - 1 = 0; omega, by simp [Slot.op], by simp, by simp, fun hx => absurd hd hx⟩
    | err e =>
      have e' : readEvent s (.err e) = { s with rSlot := .idle, rUse := s.rUse - 1, log := s.log ++ [.readDone k e []], stack := [.user] } := by
        simp [readEvent, callRead, c4, hst]
      rw [e']
      exact h.readAnswer hp hst ⟨hd.1, .inr (.inr ⟨hd.2, rfl⟩)⟩
    | data b =>
      rcases hd.2 with ⟨g1, g2⟩ | ⟨g1, rfl⟩
      · have e' : readEvent s (.data b) = { s with rSlot := .idle, rUse := s.rUse - 1, log := s.log ++ [.readDone k SUCCESS b], stack := [.user] } := by
          simp [readEvent, callRead, c4, hst, g2]
        rw [e']
        exact h.readAnswer hp hst ⟨hd.1, .inl ⟨g1, g2, rfl⟩⟩
      · have e' : readEvent s (.data []) = { s with rSlot := .idle, rUse := s.rUse - 1, log := s.log ++ [.readDone k EOF []], stack := [.user] } := by
          simp [readEvent, callRead, c4, hst]
        rw [e']
        exact h.readAnswer hp hst ⟨hd.1, .inr (.inl ⟨g1, rfl, rfl⟩)⟩
  | writeEvent =>
    dsimp only at hs
    split at hs <;> cases hs
    rename_i k r hst hp
    have ha : s.alive = true := by
      cases hx : s.alive with
      | true => rfl
      | false => have := (h.dead hx).2.2; rw [hp] at this; cases this
    rw [if_pos ha]
    obtain ⟨c1, c2, c3⟩ := h.w.cur k (by rw [hp]; rfl)
    have hd := h.w.done k r hp
    cases hcn : s.wConn with
    | true =>
      obtain ⟨k1, k2, k3⟩ := h.w.kindC k (by rw [hp]; rfl) hcn
      unfold writeEvent
      rw [k3]
      cases r with
      | aborted => have := hd.2; rw [hcn] at this; cases this
      | err e =>
        have e' : connectCallback s (.err e) = { s with wSlot := .idle, wUse := s.wUse - 1, cb := s.cb, log := s.log ++ [.connectDone k e], stack := [.user] } := by
          simp [connectCallback, callConnect, k2, hst]
        dsimp only
        rw [e']
        refine h.writeAnswer (o := .connectDone k e) hp rfl ⟨hd.1, hd.2.2.1 hcn⟩ hd.1 s.cb fun hall => ?_
        exact absurd (hall k e (by simp)) hd.2.1
      | ok n =>
        have e' : connectCallback s (.ok n) = { s with wSlot := .idle, wUse := s.wUse - 1, cb := .write, log := s.log ++ [.connectDone k SUCCESS], stack := [.user] } := by
          simp [connectCallback, callConnect, k2, hst]
        dsimp only
        rw [e']
        exact h.writeAnswer (o := .connectDone k SUCCESS) hp rfl ⟨hd.1, hd.2.1 hcn⟩ hd.1 .write fun _ => rfl
    | false =>
      obtain ⟨k1, k2, -⟩ := h.w.kindW k (by rw [hp]; rfl) hcn
      unfold writeEvent
      rw [k2]
      cases r with
      | aborted =>
        dsimp only
        unfold writeCallback
        refine free_inv (s := { s with wSlot := .idle, wUse := s.wUse - 1 }) h.ub h.stk h.base h.r ?_ hd.1 ha (h.gone ha)
        exact ⟨fun _ => by show s.wUse - 1 = 0; omega, by simp [Slot.op], by simp [Slot.op], by simp [Slot.op], by simp, by simp, fun hx => absurd hd.1 hx, fun _ _ => k2⟩
      | err e =>
        have e' : writeCallback s (.err e) = { s with wSlot := .idle, wUse := s.wUse - 1, cb := s.cb, log := s.log ++ [.writeDone k e 0], stack := [.user] } := by
          simp [writeCallback, callWrite, k1, hst]
        dsimp only
        rw [e']
        exact h.writeAnswer (o := .writeDone k e 0) hp rfl ⟨hd.1, .inr ⟨hd.2.2.2 hcn, rfl⟩⟩ hd.1 s.cb fun _ => k2
      | ok n =>
        have e' : writeCallback s (.ok n) = { s with wSlot := .idle, wUse := s.wUse - 1, cb := s.cb, log := s.log ++ [.writeDone k SUCCESS n], stack := [.user] } := by
          simp [writeCallback, callWrite, k1, hst]
        dsimp only
        rw [e']
        exact h.writeAnswer (o := .writeDone k SUCCESS n) hp rfl ⟨hd.1, .inl ⟨hd.2.2 hcn, rfl⟩⟩ hd.1 s.cb fun _ => k2

theorem reach_inv {s : St} (h : Reach Rules s) : Inv s := by
  induction h with
  | init =>
    refine ⟨rfl, .inl rfl, ⟨?_, by simp [initial, answers], by simp [initial, answers], ?_, ?_, ?_, by simp [initial]⟩, ⟨fun _ => rfl, by simp [initial, Slot.op], by simp [initial], by simp [initial], ?_⟩,
      ⟨fun _ => rfl, by simp [initial, Slot.op], by simp [initial, Slot.op], by simp [initial, Slot.op], by simp [initial], by simp [initial], ?_, fun _ _ => rfl⟩, by simp [initial], by simp [initial], by simp [initial], by simp [initial]⟩
    · simp [initial, StartedR, StartedW]
    · simp [initial, StartedR]
    · intro p o post hl; simp [initial] at hl
    · simp [initial, answers]
    · simp [initial, StartedR]
    · simp [initial, StartedW]
  | step _ hr hs ih => exact step_inv ih hr hs

/-! ### Room and bytes -/

/-- What the pending operations were started with. -/
structure Room (s : St) : Prop where
  r : ∀ k, s.rSlot = .pending k → .read k s.rSpace ∈ s.log
  w : ∀ k, s.wSlot = .pending k → s.wConn = false → .write k s.wLen ∈ s.log

theorem Room.same {s s' : St} (h : Room s) (hr : s'.rSlot = s.rSlot ∧ s'.rSpace = s.rSpace ∨ ∀ k, s'.rSlot ≠ .pending k)
    (hw : (s'.wSlot = s.wSlot ∧ s'.wLen = s.wLen ∧ s'.wConn = s.wConn) ∨ ∀ k, s'.wSlot ≠ .pending k) (hl : ∃ m, s'.log = s.log ++ m) : Room s' := by
  obtain ⟨m, hm⟩ := hl
  refine ⟨fun k hk => ?_, fun k hk hc => ?_⟩
  · rcases hr with ⟨a, b⟩ | g
    · rw [hm, b]; exact List.mem_append_left _ (h.r k (a ▸ hk))
    · exact absurd hk (g k)
  · rcases hw with ⟨a, b, c⟩ | g
    · rw [hm, b]; exact List.mem_append_left _ (h.w k (a ▸ hk) (c ▸ hc))
    · exact absurd hk (g k)

theorem tryFree_eq (s : St) : (tryFree s).rSlot = s.rSlot ∧ (tryFree s).rSpace = s.rSpace ∧ (tryFree s).wSlot = s.wSlot ∧ (tryFree s).wLen = s.wLen ∧
    (tryFree s).wConn = s.wConn ∧ ∃ m, (tryFree s).log = s.log ++ m := by
  unfold tryFree
  split
  · exact ⟨rfl, rfl, rfl, rfl, rfl, _, rfl⟩
  · exact ⟨rfl, rfl, rfl, rfl, rfl, [], by simp⟩

theorem callRead_eq (s : St) (e : Err) (b : Bytes) : (callRead s e b).rSlot = s.rSlot ∧ (callRead s e b).rSpace = s.rSpace ∧ (callRead s e b).wSlot = s.wSlot ∧
    (callRead s e b).wLen = s.wLen ∧ (callRead s e b).wConn = s.wConn ∧ ∃ m, (callRead s e b).log = s.log ++ m := by
  unfold callRead
  split
  · exact ⟨rfl, rfl, rfl, rfl, rfl, [], by simp⟩
  · exact ⟨rfl, rfl, rfl, rfl, rfl, _, rfl⟩

theorem callWrite_eq (s : St) (e : Err) (n : Nat) : (callWrite s e n).rSlot = s.rSlot ∧ (callWrite s e n).rSpace = s.rSpace ∧ (callWrite s e n).wSlot = s.wSlot ∧
    (callWrite s e n).wLen = s.wLen ∧ (callWrite s e n).wConn = s.wConn ∧ ∃ m, (callWrite s e n).log = s.log ++ m := by
  unfold callWrite
  split
  · exact ⟨rfl, rfl, rfl, rfl, rfl, [], by simp⟩
  · exact ⟨rfl, rfl, rfl, rfl, rfl, _, rfl⟩

theorem callConnect_eq (s : St) (e : Err) : (callConnect s e).rSlot = s.rSlot ∧ (callConnect s e).rSpace = s.rSpace ∧ (callConnect s e).wSlot = s.wSlot ∧
    (callConnect s e).wLen = s.wLen ∧ (callConnect s e).wConn = s.wConn ∧ ∃ m, (callConnect s e).log = s.log ++ m := by
  unfold callConnect
  split
  · exact ⟨rfl, rfl, rfl, rfl, rfl, [], by simp⟩
  · exact ⟨rfl, rfl, rfl, rfl, rfl, _, rfl⟩

theorem readEvent_eq (s : St) (r : RRes) : (readEvent s r).rSlot = .idle ∧ (readEvent s r).wSlot = s.wSlot ∧
    (readEvent s r).wLen = s.wLen ∧ (readEvent s r).wConn = s.wConn ∧ ∃ m, (readEvent s r).log = s.log ++ m := by
  unfold readEvent
  dsimp only
  split
  · obtain ⟨a, b, c, d, e, f⟩ := tryFree_eq { s with rSlot := .idle, rUse := s.rUse - 1 }
    exact ⟨a, c, d, e, f⟩
  · obtain ⟨a, b, c, d, e, f⟩ := callRead_eq { s with rSlot := .idle, rUse := s.rUse - 1 } ‹_› []
    exact ⟨a, c, d, e, f⟩
  · split
    · obtain ⟨a, b, c, d, e, f⟩ := callRead_eq { s with rSlot := .idle, rUse := s.rUse - 1 } EOF []
      exact ⟨a, c, d, e, f⟩
    · obtain ⟨a, b, c, d, e, f⟩ := callRead_eq { s with rSlot := .idle, rUse := s.rUse - 1 } SUCCESS ‹_›
      exact ⟨a, c, d, e, f⟩

theorem writeEvent_eq (s : St) (r : WRes) : (writeEvent s r).rSlot = s.rSlot ∧ (writeEvent s r).rSpace = s.rSpace ∧
    (writeEvent s r).wSlot = .idle ∧ ∃ m, (writeEvent s r).log = s.log ++ m := by
  unfold writeEvent writeCallback connectCallback
  dsimp only
  split
  · split
    · obtain ⟨a, b, c, d, e, f⟩ := tryFree_eq { s with wSlot := .idle, wUse := s.wUse - 1 }
      exact ⟨a, b, c, f⟩
    · obtain ⟨a, b, c, d, e, f⟩ := callWrite_eq { s with wSlot := .idle, wUse := s.wUse - 1 } ‹_› 0
      exact ⟨a, b, c, f⟩
    · obtain ⟨a, b, c, d, e, f⟩ := callWrite_eq { s with wSlot := .idle, wUse := s.wUse - 1 } SUCCESS ‹_›
      exact ⟨a, b, c, f⟩
  · split
    · obtain ⟨a, b, c, d, e, f⟩ := callConnect_eq { s with wSlot := .idle, wUse := s.wUse - 1 } OPERATION_ABORTED
      exact ⟨a, b, c, f⟩
    · obtain ⟨a, b, c, d, e, f⟩ := callConnect_eq { s with wSlot := .idle, wUse := s.wUse - 1 } ‹_›
      exact ⟨a, b, c, f⟩
    · obtain ⟨a, b, c, d, e, f⟩ := callConnect_eq { s with wSlot := .idle, wUse := s.wUse - 1, cb := .write } SUCCESS
      exact ⟨a, b, c, f⟩

theorem close_eq (s : St) : (close s).rSlot = s.rSlot.cancel .aborted ∧ (close s).wSlot = s.wSlot.cancel .aborted ∧ ∃ m, (close s).log = s.log ++ m := by
  obtain ⟨a, b, c, d, e, m, hm⟩ := tryFree_eq { s with rSlot := s.rSlot.cancel .aborted, wSlot := s.wSlot.cancel .aborted, log := s.log ++ [.close] }
  exact ⟨a, c, [.close] ++ m, by rw [show (close s).log = _ from hm]; simp⟩

theorem cancel_not_pending {R : Type} (sl : Slot R) (a : R) (k : Nat) : sl.cancel a ≠ .pending k := by
  cases sl <;> simp [Slot.cancel]

theorem step_room {s s' : St} {m : Move} (hv : Inv s) (h : Room s) (hr : Rules s m) (hs : step s m = some s') : Room s' := by
  unfold step at hs
  rw [if_neg (by rw [hv.ub]; decide)] at hs
  have keep : ∀ {s' : St} (_ : s'.rSlot = s.rSlot) (_ : s'.rSpace = s.rSpace) (_ : s'.wSlot = s.wSlot) (_ : s'.wLen = s.wLen) (_ : s'.wConn = s.wConn)
      (_ : ∃ m, s'.log = s.log ++ m), Room s' := fun a b c d e f => h.same (.inl ⟨a, b⟩) (.inl ⟨c, d, e⟩) f
  cases m with
  | enter => dsimp only at hs; split at hs <;> cases hs; exact keep rfl rfl rfl rfl rfl ⟨[], by simp⟩
  | leave => dsimp only at hs; split at hs <;> cases hs; exact keep rfl rfl rfl rfl rfl ⟨[], by simp⟩
  | «continue» =>
    dsimp only at hs; split at hs <;> cases hs
    split
    · exact keep rfl rfl rfl rfl rfl ⟨[], by simp⟩
    · exact keep rfl rfl rfl rfl rfl ⟨[], by simp⟩
  | read space ok =>
    dsimp only at hs; split at hs <;> cases hs
    obtain ⟨hi, hu⟩ := hv.r.free hr.2.2
    cases ok with
    | true =>
      have e : read s space true = { s with next := s.next + 1, rHandler := some s.next, rSpace := space, rSlot := .pending s.next, rUse := s.rUse + 1, log := s.log ++ [.read s.next space] } := by
        simp [read, hi]
      rw [e]
      exact ⟨fun k hk => by cases hk; simp, fun k hk hc => List.mem_append_left _ (h.w k hk hc)⟩
    | false =>
      have e : read s space false = { s with next := s.next + 1, rHandler := some s.next, rSpace := space, log := s.log ++ [.refused s.next] } := by
        simp [read, hi]
      rw [e]
      exact h.same (.inr fun k hk => by rw [show s.rSlot = .pending k from hk] at hi; cases hi) (.inl ⟨rfl, rfl, rfl⟩) ⟨_, rfl⟩
  | write len ok =>
    dsimp only at hs; split at hs <;> cases hs
    obtain ⟨hi, hu⟩ := hv.w.free hr.2.1
    cases ok with
    | true =>
      have e : write s len true = { s with next := s.next + 1, wHandler := some s.next, wLen := len, wConn := false, wSlot := .pending s.next, wUse := s.wUse + 1, log := s.log ++ [.write s.next len] } := by
        simp [write, hi]
      rw [e]
      exact ⟨fun k hk => List.mem_append_left _ (h.r k hk), fun k hk hc => by cases hk; simp⟩
    | false =>
      have e : write s len false = { s with next := s.next + 1, wHandler := some s.next, wLen := len, wConn := false, log := s.log ++ [.refused s.next] } := by
        simp [write, hi]
      rw [e]
      exact h.same (.inl ⟨rfl, rfl⟩) (.inr fun k hk => by rw [show s.wSlot = .pending k from hk] at hi; cases hi) ⟨_, rfl⟩
  | connect r =>
    dsimp only at hs; split at hs <;> cases hs
    obtain ⟨hi, hu⟩ := hv.w.free hr.2.1
    cases r with
    | atOnce => exact absurd rfl hr.2.2
    | pending =>
      have e : connect s .pending = { s with next := s.next + 1, wConn := true, wSlot := .pending s.next, wUse := s.wUse + 1, cHandler := some s.next, cb := .connect, log := s.log ++ [.connect s.next] } := by
        simp [connect, hi]
      rw [e]
      exact ⟨fun k hk => List.mem_append_left _ (h.r k hk), fun k hk hc => by cases hc⟩
    | failed =>
      have e : connect s .failed = { s with next := s.next + 1, wConn := true, log := s.log ++ [.refused s.next] } := by
        simp [connect, hi]
      rw [e]
      exact ⟨fun k hk => List.mem_append_left _ (h.r k hk), fun k hk hc => by cases hc⟩
  | close =>
    dsimp only at hs; split at hs <;> cases hs
    obtain ⟨a, b, c⟩ := close_eq s
    exact h.same (.inr fun k => by rw [a]; exact cancel_not_pending _ _ _) (.inr fun k => by rw [b]; exact cancel_not_pending _ _ _) c
  | received b =>
    dsimp only at hs; split at hs <;> first | contradiction | skip
    split at hs <;> cases hs
    exact h.same (.inr (by simp)) (.inl ⟨rfl, rfl, rfl⟩) ⟨_, rfl⟩
  | eof =>
    dsimp only at hs; split at hs <;> cases hs
    exact h.same (.inr (by simp)) (.inl ⟨rfl, rfl, rfl⟩) ⟨_, rfl⟩
  | recvFailed e =>
    dsimp only at hs; split at hs <;> first | contradiction | skip
    split at hs <;> cases hs
    exact h.same (.inr (by simp)) (.inl ⟨rfl, rfl, rfl⟩) ⟨_, rfl⟩
  | sent n =>
    dsimp only at hs; split at hs <;> first | contradiction | skip
    split at hs <;> cases hs
    exact h.same (.inl ⟨rfl, rfl⟩) (.inr (by simp)) ⟨_, rfl⟩
  | sendFailed e =>
    dsimp only at hs; split at hs <;> first | contradiction | skip
    split at hs <;> cases hs
    exact h.same (.inl ⟨rfl, rfl⟩) (.inr (by simp)) ⟨_, rfl⟩
  | connected e =>
    dsimp only at hs; split at hs <;> first | contradiction | skip
    split at hs <;> cases hs
    exact h.same (.inl ⟨rfl, rfl⟩) (.inr (by simp)) ⟨_, rfl⟩
  | readEvent =>
    dsimp only at hs; split at hs <;> cases hs
    split
    · obtain ⟨a, b, c, d, e⟩ := readEvent_eq s ‹_›
      exact h.same (.inr fun k => by rw [a]; simp) (.inl ⟨b, c, d⟩) e
    · exact keep rfl rfl rfl rfl rfl ⟨[], by simp⟩
  | writeEvent =>
    dsimp only at hs; split at hs <;> cases hs
    split
    · obtain ⟨a, b, c, d⟩ := writeEvent_eq s ‹_›
      exact h.same (.inl ⟨a, b⟩) (.inr fun k => by rw [c]; simp) d
    · exact keep rfl rfl rfl rfl rfl ⟨[], by simp⟩

theorem reach_room {s : St} (h : Reach Rules s) : Room s := by
  induction h with
  | init => exact ⟨by simp [initial], by simp [initial]⟩
  | step h hr hs ih => exact step_room (reach_inv h) ih hr hs

/-- The bytes winsock has received, and those the handlers got, in order. -/
def receivedBytes (l : List Obs) : Bytes := l.flatMap fun o => match o with | .received _ b => b | _ => []
def deliveredBytes (l : List Obs) : Bytes := l.flatMap fun o => match o with | .readDone _ _ b => b | _ => []

def Slot.waiting : Slot RRes → Bytes
  | .done _ (.data b) => b
  | _ => []

theorem receivedBytes_app (l m : List Obs) : receivedBytes (l ++ m) = receivedBytes l ++ receivedBytes m := by simp [receivedBytes]
theorem deliveredBytes_app (l m : List Obs) : deliveredBytes (l ++ m) = deliveredBytes l ++ deliveredBytes m := by simp [deliveredBytes]

theorem step_bytes {s s' : St} {m : Move} (hv : Inv s) (h : receivedBytes s.log = deliveredBytes s.log ++ s.rSlot.waiting) (hr : Rules s m)
    (hs : step s m = some s') : receivedBytes s'.log = deliveredBytes s'.log ++ s'.rSlot.waiting := by
  unfold step at hs
  rw [if_neg (by rw [hv.ub]; decide)] at hs
  have keep : ∀ {s' : St} (m : List Obs), s'.log = s.log ++ m → s'.rSlot.waiting = s.rSlot.waiting → receivedBytes m = [] → deliveredBytes m = [] →
      receivedBytes s'.log = deliveredBytes s'.log ++ s'.rSlot.waiting := fun m a b c d => by
    rw [a, receivedBytes_app, deliveredBytes_app, c, d, b, List.append_nil, List.append_nil]; exact h
  have free : ∀ t : St, ∃ m, (tryFree t).log = t.log ++ m ∧ receivedBytes m = [] ∧ deliveredBytes m = [] ∧ (tryFree t).rSlot = t.rSlot := fun t => by
    unfold tryFree
    split
    · exact ⟨_, rfl, rfl, rfl, rfl⟩
    · exact ⟨[], by simp, rfl, rfl, rfl⟩
  have cw : ∀ (t : St) e n, ∃ m, (callWrite t e n).log = t.log ++ m ∧ receivedBytes m = [] ∧ deliveredBytes m = [] ∧ (callWrite t e n).rSlot = t.rSlot := fun t e n => by
    unfold callWrite
    split
    · exact ⟨[], by simp, rfl, rfl, rfl⟩
    · exact ⟨_, rfl, rfl, rfl, rfl⟩
  have cc : ∀ (t : St) e, ∃ m, (callConnect t e).log = t.log ++ m ∧ receivedBytes m = [] ∧ deliveredBytes m = [] ∧ (callConnect t e).rSlot = t.rSlot := fun t e => by
    unfold callConnect
    split
    · exact ⟨[], by simp, rfl, rfl, rfl⟩
    · exact ⟨_, rfl, rfl, rfl, rfl⟩
  cases m with
  | enter => dsimp only at hs; split at hs <;> cases hs; exact h
  | leave => dsimp only at hs; split at hs <;> cases hs; exact h
  | «continue» =>
    dsimp only at hs; split at hs <;> cases hs
    split <;> exact h
  | read space ok =>
    dsimp only at hs; split at hs <;> cases hs
    obtain ⟨hi, hu⟩ := hv.r.free hr.2.2
    cases ok with
    | true =>
      have e : read s space true = { s with next := s.next + 1, rHandler := some s.next, rSpace := space, rSlot := .pending s.next, rUse := s.rUse + 1, log := s.log ++ [.read s.next space] } := by
        simp [read, hi]
      rw [e]
      exact keep _ rfl (by rw [hi]; rfl) rfl rfl
    | false =>
      have e : read s space false = { s with next := s.next + 1, rHandler := some s.next, rSpace := space, log := s.log ++ [.refused s.next] } := by
        simp [read, hi]
      rw [e]
      exact keep _ rfl rfl rfl rfl
  | write len ok =>
    dsimp only at hs; split at hs <;> cases hs
    obtain ⟨hi, hu⟩ := hv.w.free hr.2.1
    cases ok with
    | true =>
      have e : write s len true = { s with next := s.next + 1, wHandler := some s.next, wLen := len, wConn := false, wSlot := .pending s.next, wUse := s.wUse + 1, log := s.log ++ [.write s.next len] } := by
        simp [write, hi]
      rw [e]
      exact keep _ rfl rfl rfl rfl
    | false =>
      have e : write s len false = { s with next := s.next + 1, wHandler := some s.next, wLen := len, wConn := false, log := s.log ++ [.refused s.next] } := by
        simp [write, hi]
      rw [e]
      exact keep _ rfl rfl rfl rfl
  | connect r =>
    dsimp only at hs; split at hs <;> cases hs
    obtain ⟨hi, hu⟩ := hv.w.free hr.2.1
    cases r with
    | atOnce => exact absurd rfl hr.2.2
    | pending =>
      have e : connect s .pending = { s with next := s.next + 1, wConn := true, wSlot := .pending s.next, wUse := s.wUse + 1, cHandler := some s.next, cb := .connect, log := s.log ++ [.connect s.next] } := by
        simp [connect, hi]
      rw [e]
      exact keep _ rfl rfl rfl rfl
    | failed =>
      have e : connect s .failed = { s with next := s.next + 1, wConn := true, log := s.log ++ [.refused s.next] } := by
        simp [connect, hi]
      rw [e]
      exact keep _ rfl rfl rfl rfl
  | close =>
    dsimp only at hs; split at hs <;> cases hs
    obtain ⟨m, a, b, c, d⟩ := free { s with rSlot := s.rSlot.cancel .aborted, wSlot := s.wSlot.cancel .aborted, log := s.log ++ [.close] }
    refine keep ([.close] ++ m) (by rw [show (close s).log = _ from a]; simp) ?_ ?_ ?_
    · rw [show (close s).rSlot = _ from d]
      show (s.rSlot.cancel .aborted).waiting = _
      cases s.rSlot <;> rfl
    · rw [receivedBytes_app, b]; rfl
    · rw [deliveredBytes_app, c]; rfl
  | received b =>
    dsimp only at hs; split at hs <;> first | contradiction | skip
    rename_i k hp
    split at hs <;> cases hs
    rw [hp] at h
    show receivedBytes (s.log ++ [.received k b]) = deliveredBytes (s.log ++ [.received k b]) ++ b
    rw [receivedBytes_app, deliveredBytes_app, h]
    simp [Slot.waiting, receivedBytes, deliveredBytes]
  | eof =>
    dsimp only at hs; split at hs <;> cases hs
    rename_i k hp
    exact keep _ rfl (by rw [hp]; rfl) rfl rfl
  | recvFailed e =>
    dsimp only at hs; split at hs <;> first | contradiction | skip
    rename_i k hp
    split at hs <;> cases hs
    exact keep _ rfl (by rw [hp]; rfl) rfl rfl
  | sent n =>
    dsimp only at hs; split at hs <;> first | contradiction | skip
    split at hs <;> cases hs
    exact keep _ rfl rfl rfl rfl
  | sendFailed e =>
    dsimp only at hs; split at hs <;> first | contradiction | skip
    split at hs <;> cases hs
    exact keep _ rfl rfl rfl rfl
  | connected e =>
    dsimp only at hs; split at hs <;> first | contradiction | skip
    split at hs <;> cases hs
    exact keep _ rfl rfl rfl rfl
  | readEvent =>
    dsimp only at hs; split at hs <;> cases hs
    rename_i k r hst hp
    split
    · obtain ⟨-, -, -, c4⟩ := hv.r.cur k (by rw [hp]; rfl)
      rw [hp] at h
      unfold readEvent
      dsimp only
      cases r with
      | aborted =>
        obtain ⟨m, a, b, c, d⟩ := free { s with rSlot := .idle, rUse := s.rUse - 1 }
        exact keep m a (by rw [d, hp]; rfl) b c
      | err e =>
        simp only [callRead, c4]
        exact keep (s' := { s with rSlot := .idle, rUse := s.rUse - 1, log := s.log ++ [.readDone k e []], stack := .user :: s.stack }) _ rfl (by rw [hp]; rfl) rfl rfl
      | data b =>
        cases b with
        | nil =>
          simp only [callRead, c4, List.length_nil, if_true]
          exact keep (s' := { s with rSlot := .idle, rUse := s.rUse - 1, log := s.log ++ [.readDone k EOF []], stack := .user :: s.stack }) _ rfl (by rw [hp]; rfl) rfl rfl
        | cons x b =>
          simp only [callRead, c4, List.length_cons, Nat.succ_ne_zero, if_false]
          rw [receivedBytes_app, deliveredBytes_app, h]
          simp [Slot.waiting, receivedBytes, deliveredBytes]
    · exact h
  | writeEvent =>
    dsimp only at hs; split at hs <;> cases hs
    rename_i k r hst hp
    split
    · unfold writeEvent
      cases s.cb with
      | write =>
        cases r with
        | aborted =>
          obtain ⟨m, a, b, c, d⟩ := free { s with wSlot := .idle, wUse := s.wUse - 1 }
          exact keep m a (by rw [show (writeCallback s .aborted).rSlot = _ from d]) b c
        | err e =>
          obtain ⟨m, a, b, c, d⟩ := cw { s with wSlot := .idle, wUse := s.wUse - 1 } e 0
          exact keep m a (by rw [show (writeCallback s (.err e)).rSlot = _ from d]) b c
        | ok n =>
          obtain ⟨m, a, b, c, d⟩ := cw { s with wSlot := .idle, wUse := s.wUse - 1 } SUCCESS n
          exact keep m a (by rw [show (writeCallback s (.ok n)).rSlot = _ from d]) b c
      | connect =>
        cases r with
        | aborted =>
          obtain ⟨m, a, b, c, d⟩ := cc { s with wSlot := .idle, wUse := s.wUse - 1 } OPERATION_ABORTED
          exact keep m a (by rw [show (connectCallback s .aborted).rSlot = _ from d]) b c
        | err e =>
          obtain ⟨m, a, b, c, d⟩ := cc { s with wSlot := .idle, wUse := s.wUse - 1 } e
          exact keep m a (by rw [show (connectCallback s (.err e)).rSlot = _ from d]) b c
        | ok n =>
          obtain ⟨m, a, b, c, d⟩ := cc { s with wSlot := .idle, wUse := s.wUse - 1, cb := .write } SUCCESS
          exact keep m a (by rw [show (connectCallback s (.ok n)).rSlot = _ from d]) b c
    · exact h

theorem reach_bytes {s : St} (h : Reach Rules s) : receivedBytes s.log = deliveredBytes s.log ++ s.rSlot.waiting := by
  induction h with
  | init => rfl
  | step h hr hs ih => exact step_bytes (reach_inv h) ih hr hs

/-! ### Theorems -/

/-- C55 (within the rules of use): every handler is called at most once, that of a refused operation never, it is told the truth, no handler is
called after `cio_socket_close`, the close hook is called only after that, once, and the library never uses what it has not set or a socket that
was given back. -/
theorem answered_once_partial {s : St} (h : Reach Rules s) :
    (∀ k, answers k s.log ≤ 1) ∧ (∀ k, ¬ StartedR k s.log → ¬ StartedW k s.log → answers k s.log = 0) ∧ Truthful s.log ∧ s.ub = false := by
  have hv := reach_inv h
  exact ⟨hv.base.once, hv.base.ans, hv.base.truth, hv.ub⟩

/-- C55 (within the rules of use): no read is forgotten.  Until the socket is closed its handler was called, or its end waits for the event
loop, which will call it, or winsock is still at it, and whatever comes of it is told to the handler. -/
theorem read_not_forgotten_partial {s : St} (h : Reach Rules s) (hc : .close ∉ s.log) (hidle : s.stack = []) {k : Nat} (hk : StartedR k s.log) :
    answers k s.log = 1 ∨ (answers k s.log = 0 ∧
      ((∃ s' e b, run s [.readEvent] = some s' ∧ s'.log = s.log ++ [.readDone k e b]) ∨
       (∃ n, .read k n ∈ s.log ∧
         (∀ b, b ≠ [] → b.length ≤ n → ∃ s', run s [.received b, .readEvent] = some s' ∧ s'.log = s.log ++ [.received k b, .readDone k SUCCESS b]) ∧
         (∃ s', run s [.eof, .readEvent] = some s' ∧ s'.log = s.log ++ [.eof k, .readDone k EOF []]) ∧
         (∀ e, e < 0 → e ≠ OPERATION_ABORTED → ∃ s', run s [.recvFailed e, .readEvent] = some s' ∧ s'.log = s.log ++ [.recvFailed k e, .readDone k e []])))) := by
  have hv := reach_inv h
  by_cases ho : s.rSlot.op = some k
  · right
    obtain ⟨c1, c2, c3, c4⟩ := hv.r.cur k ho
    have ha : s.alive = true := by
      cases hx : s.alive with
      | true => rfl
      | false => exact absurd (hv.dead hx).1 hc
    refine ⟨c2, ?_⟩
    cases hsl : s.rSlot with
    | idle => rw [hsl] at ho; cases ho
    | pending j =>
      have hj : j = k := by rw [hsl] at ho; cases ho; rfl
      subst hj
      refine .inr ⟨s.rSpace, (reach_room h).r j hsl, fun b hb hl => ?_, ?_, fun e h1 h2 => ?_⟩
      · refine ⟨{ s with rSlot := .idle, rUse := s.rUse - 1, log := s.log ++ [.received j b, .readDone j SUCCESS b], stack := [.user] }, ?_, rfl⟩
        simp [run, step, hv.ub, hsl, hl, hb, hidle, ha, readEvent, callRead, c4]
      · refine ⟨{ s with rSlot := .idle, rUse := s.rUse - 1, log := s.log ++ [.eof j, .readDone j EOF []], stack := [.user] }, ?_, rfl⟩
        simp [run, step, hv.ub, hsl, hidle, ha, readEvent, callRead, c4]
      · refine ⟨{ s with rSlot := .idle, rUse := s.rUse - 1, log := s.log ++ [.recvFailed j e, .readDone j e []], stack := [.user] }, ?_, rfl⟩
        simp [run, step, hv.ub, hsl, hidle, ha, readEvent, callRead, c4, h1, h2]
    | done j r =>
      have hj : j = k := by rw [hsl] at ho; cases ho; rfl
      subst hj
      have hd := hv.r.done j r hsl
      left
      cases r with
      | aborted => exact absurd hd hc
      | err e =>
        refine ⟨{ s with rSlot := .idle, rUse := s.rUse - 1, log := s.log ++ [.readDone j e []], stack := [.user] }, e, [], ?_, rfl⟩
        simp [run, step, hv.ub, hsl, hidle, ha, readEvent, callRead, c4]
      | data b =>
        by_cases hb : b = []
        · subst hb
          refine ⟨{ s with rSlot := .idle, rUse := s.rUse - 1, log := s.log ++ [.readDone j EOF []], stack := [.user] }, EOF, [], ?_, rfl⟩
          simp [run, step, hv.ub, hsl, hidle, ha, readEvent, callRead, c4]
        · refine ⟨{ s with rSlot := .idle, rUse := s.rUse - 1, log := s.log ++ [.readDone j SUCCESS b], stack := [.user] }, SUCCESS, b, ?_, rfl⟩
          simp [run, step, hv.ub, hsl, hidle, ha, readEvent, callRead, c4, hb]
  · exact .inl (hv.r.old hc k hk ho)

/-- C55 (within the rules of use): no write is forgotten. -/
theorem write_not_forgotten_partial {s : St} (h : Reach Rules s) (hc : .close ∉ s.log) (hidle : s.stack = []) {k n : Nat} (hk : .write k n ∈ s.log) :
    answers k s.log = 1 ∨ (answers k s.log = 0 ∧
      ((∃ s' e m, run s [.writeEvent] = some s' ∧ s'.log = s.log ++ [.writeDone k e m]) ∨
       (∃ n', .write k n' ∈ s.log ∧
        (∀ m, m ≤ n' → ∃ s', run s [.sent m, .writeEvent] = some s' ∧ s'.log = s.log ++ [.sent k m, .writeDone k SUCCESS m]) ∧
        (∀ e, e < 0 → e ≠ OPERATION_ABORTED → ∃ s', run s [.sendFailed e, .writeEvent] = some s' ∧ s'.log = s.log ++ [.sendFailed k e, .writeDone k e 0])))) := by
  have hv := reach_inv h
  by_cases ho : s.wSlot.op = some k
  · right
    obtain ⟨c1, c2, c3⟩ := hv.w.cur k ho
    have ha : s.alive = true := by
      cases hx : s.alive with
      | true => rfl
      | false => exact absurd (hv.dead hx).1 hc
    have hcn : s.wConn = false := by
      cases hx : s.wConn with
      | false => rfl
      | true => exact (hv.base.kinds k n hk (hv.w.kindC k ho hx).1).elim
    obtain ⟨k1, k2, -⟩ := hv.w.kindW k ho hcn
    refine ⟨c2, ?_⟩
    cases hsl : s.wSlot with
    | idle => rw [hsl] at ho; cases ho
    | pending j =>
      have hj : j = k := by rw [hsl] at ho; cases ho; rfl
      subst hj
      refine .inr ⟨s.wLen, (reach_room h).w j hsl hcn, fun m hm => ?_, fun e h1 h2 => ?_⟩
      · refine ⟨{ s with wSlot := .idle, wUse := s.wUse - 1, log := s.log ++ [.sent j m, .writeDone j SUCCESS m], stack := [.user] }, ?_, rfl⟩
        simp [run, step, hv.ub, hsl, hcn, hm, hidle, ha, writeEvent, writeCallback, callWrite, k1, k2]
      · refine ⟨{ s with wSlot := .idle, wUse := s.wUse - 1, log := s.log ++ [.sendFailed j e, .writeDone j e 0], stack := [.user] }, ?_, rfl⟩
        simp [run, step, hv.ub, hsl, hcn, hidle, ha, writeEvent, writeCallback, callWrite, k1, k2, h1, h2]
    | done j r =>
      have hj : j = k := by rw [hsl] at ho; cases ho; rfl
      subst hj
      have hd := hv.w.done j r hsl
      left
      cases r with
      | aborted => exact absurd hd.1 hc
      | err e =>
        refine ⟨{ s with wSlot := .idle, wUse := s.wUse - 1, log := s.log ++ [.writeDone j e 0], stack := [.user] }, e, 0, ?_, rfl⟩
        simp [run, step, hv.ub, hsl, hidle, ha, writeEvent, writeCallback, callWrite, k1, k2]
      | ok m =>
        refine ⟨{ s with wSlot := .idle, wUse := s.wUse - 1, log := s.log ++ [.writeDone j SUCCESS m], stack := [.user] }, SUCCESS, m, ?_, rfl⟩
        simp [run, step, hv.ub, hsl, hidle, ha, writeEvent, writeCallback, callWrite, k1, k2]
  · exact .inl (hv.w.old hc k (.inl ⟨n, hk⟩) ho)

/-- C55 (within the rules of use): no connect is forgotten. -/
theorem connect_not_forgotten_partial {s : St} (h : Reach Rules s) (hc : .close ∉ s.log) (hidle : s.stack = []) {k : Nat} (hk : .connect k ∈ s.log) :
    answers k s.log = 1 ∨ (answers k s.log = 0 ∧
      ((∃ s' e, run s [.writeEvent] = some s' ∧ s'.log = s.log ++ [.connectDone k e]) ∨
       (∀ e, e ≤ 0 → ∃ s', run s [.connected e, .writeEvent] = some s' ∧ s'.log = s.log ++ [.connected k e, .connectDone k e]))) := by
  have hv := reach_inv h
  by_cases ho : s.wSlot.op = some k
  · right
    obtain ⟨c1, c2, c3⟩ := hv.w.cur k ho
    have ha : s.alive = true := by
      cases hx : s.alive with
      | true => rfl
      | false => exact absurd (hv.dead hx).1 hc
    have hcn : s.wConn = true := by
      cases hx : s.wConn with
      | true => rfl
      | false => exact (hv.w.kindW k ho hx).2.2.elim fun n hn => (hv.base.kinds k n hn hk).elim
    obtain ⟨k0, k1, k2⟩ := hv.w.kindC k ho hcn
    refine ⟨c2, ?_⟩
    cases hsl : s.wSlot with
    | idle => rw [hsl] at ho; cases ho
    | pending j =>
      have hj : j = k := by rw [hsl] at ho; cases ho; rfl
      subst hj
      refine .inr fun e he => ?_
      by_cases h0 : e = 0
      · subst h0
        refine ⟨{ s with wSlot := .idle, wUse := s.wUse - 1, cb := .write, log := s.log ++ [.connected j 0, .connectDone j 0], stack := [.user] }, ?_, rfl⟩
        simp [run, step, hv.ub, hsl, hcn, hidle, ha, writeEvent, connectCallback, callConnect, k1, k2, SUCCESS]
      · refine ⟨{ s with wSlot := .idle, wUse := s.wUse - 1, log := s.log ++ [.connected j e, .connectDone j e], stack := [.user] }, ?_, rfl⟩
        simp [run, step, hv.ub, hsl, hcn, hidle, ha, writeEvent, connectCallback, callConnect, k1, k2, he, h0]
    | done j r =>
      have hj : j = k := by rw [hsl] at ho; cases ho; rfl
      subst hj
      have hd := hv.w.done j r hsl
      left
      cases r with
      | aborted => exact absurd hd.1 hc
      | err e =>
        refine ⟨{ s with wSlot := .idle, wUse := s.wUse - 1, log := s.log ++ [.connectDone j e], stack := [.user] }, e, ?_, rfl⟩
        simp [run, step, hv.ub, hsl, hidle, ha, writeEvent, connectCallback, callConnect, k1, k2]
      | ok m =>
        refine ⟨{ s with wSlot := .idle, wUse := s.wUse - 1, cb := .write, log := s.log ++ [.connectDone j SUCCESS], stack := [.user] }, SUCCESS, ?_, rfl⟩
        simp [run, step, hv.ub, hsl, hidle, ha, writeEvent, connectCallback, callConnect, k1, k2]
  · exact .inl (hv.w.old hc k (.inr hk) ho)

/-- C55 (within the rules of use): closing completes.  After `cio_socket_close` the descriptor was closed and the hook called, or the event loop
still has packets of the cancelled operations, and does both when it has seen them. -/
theorem close_completes_partial {s : St} (h : Reach Rules s) (hc : .close ∈ s.log) (hidle : s.stack = []) :
    .hook ∈ s.log ∨ ∃ ms s', (ms = [.readEvent] ∨ ms = [.writeEvent] ∨ ms = [.readEvent, .writeEvent]) ∧ run s ms = some s' ∧ s'.log = s.log ++ [.closed, .hook] := by
  have hv := reach_inv h
  cases hx : s.alive with
  | false => exact .inl (hv.went hx).2
  | true =>
    right
    have hr : s.rSlot = .idle ∨ ∃ k, s.rSlot = .done k .aborted := by
      cases hsl : s.rSlot with
      | idle => exact .inl rfl
      | pending k => exact absurd hc (hv.r.pend k hsl).1
      | done k r =>
        have := hv.r.done k r hsl
        cases r with
        | aborted => exact .inr ⟨k, rfl⟩
        | data b => exact absurd hc this.1
        | err e => exact absurd hc this.1
    have hw : s.wSlot = .idle ∨ ∃ k, s.wSlot = .done k .aborted ∧ s.cb = .write := by
      cases hsl : s.wSlot with
      | idle => exact .inl rfl
      | pending k => exact absurd hc (hv.w.pend k hsl)
      | done k r =>
        have := hv.w.done k r hsl
        cases r with
        | aborted => exact .inr ⟨k, rfl, (hv.w.kindW k (by rw [hsl]; rfl) this.2).2.1⟩
        | ok n => exact absurd hc this.1
        | err e => exact absurd hc this.1
    rcases hr with hr | ⟨k, hr⟩ <;> rcases hw with hw | ⟨j, hw, hcb⟩
    · exact absurd hw ((hv.closing hc hx).resolve_left (fun g => g hr))
    · have c := (hv.w.cur j (by rw [hw]; rfl)).2.2
      have u := hv.r.idle hr
      refine ⟨[.writeEvent], { s with wSlot := .idle, wUse := 0, alive := false, log := s.log ++ [.closed, .hook] }, .inr (.inl rfl), ?_, rfl⟩
      simp [run, step, hv.ub, hidle, hx, hw, hcb, writeEvent, writeCallback, tryFree, c, u]
    · have c := (hv.r.cur k (by rw [hr]; rfl)).2.2.1
      have u := hv.w.idle hw
      refine ⟨[.readEvent], { s with rSlot := .idle, rUse := 0, alive := false, log := s.log ++ [.closed, .hook] }, .inl rfl, ?_, rfl⟩
      simp [run, step, hv.ub, hidle, hx, hr, readEvent, tryFree, c, u]
    · have c := (hv.r.cur k (by rw [hr]; rfl)).2.2.1
      have c' := (hv.w.cur j (by rw [hw]; rfl)).2.2
      refine ⟨[.readEvent, .writeEvent], { s with rSlot := .idle, rUse := 0, wSlot := .idle, wUse := 0, alive := false, log := s.log ++ [.closed, .hook] }, .inr (.inr rfl), ?_, rfl⟩
      simp [run, step, hv.ub, hidle, hx, hr, hw, hcb, readEvent, writeEvent, writeCallback, tryFree, c, c']

/-- C55 (within the rules of use): when the close hook was called, winsock and the completion port have nothing of the socket any more. -/
theorem hook_is_last_partial {s : St} (h : Reach Rules s) (hh : .hook ∈ s.log) : s.rSlot = .idle ∧ s.wSlot = .idle := by
  have hv := reach_inv h
  cases hx : s.alive with
  | true => exact absurd hh (hv.gone hx).2
  | false => exact (hv.dead hx).2

/-- C55 (within the rules of use): the handlers get the received bytes, in order; only the end that waits for the event loop is missing. -/
theorem bytes_in_order_partial {s : St} (h : Reach Rules s) :
    ∃ w, receivedBytes s.log = deliveredBytes s.log ++ w ∧ ((∀ k, StartedR k s.log → answers k s.log = 1) → w = []) := by
  refine ⟨s.rSlot.waiting, reach_bytes h, fun ha => ?_⟩
  rw [((reach_inv h).r.free ha).1]; rfl

/-! ### What does not hold -/

/-- C55 fails when the socket is closed while data waits for the event loop: the handler is called after `cio_socket_close`, and the descriptor
is never closed and the hook never called. -/
theorem completion_after_close : ∃ s, run initial [.enter, .read 10 true, .received [1], .close, .leave, .readEvent, .leave] = some s ∧
    s.log = [.read 0 10, .received 0 [1], .close, .readDone 0 SUCCESS [1]] ∧ s.rSlot = .idle ∧ s.wSlot = .idle ∧ s.stack = [] ∧ s.ub = false :=
  ⟨_, rfl, rfl, rfl, rfl, rfl, rfl⟩

/-- ... and a handler that closes the socket on that, too, is fine, but one that reads on is served, although the socket was closed. -/
theorem read_after_close : ∃ s, run initial [.enter, .read 10 true, .received [1], .close, .leave, .readEvent, .read 10 true, .leave, .received [2], .readEvent] = some s ∧
    s.log = [.read 0 10, .received 0 [1], .close, .readDone 0 SUCCESS [1], .read 1 10, .received 1 [2], .readDone 1 SUCCESS [2]] := ⟨_, rfl, rfl⟩

/-- C55 fails when the socket is closed during a connect: the connect handler is called after `cio_socket_close`, and the hook never. -/
theorem close_while_connecting : ∃ s, run initial [.enter, .connect .pending, .close, .leave, .writeEvent, .leave] = some s ∧
    s.log = [.connect 0, .close, .connectDone 0 OPERATION_ABORTED] ∧ s.rSlot = .idle ∧ s.wSlot = .idle ∧ s.stack = [] ∧ s.ub = false :=
  ⟨_, rfl, rfl, rfl, rfl, rfl, rfl⟩

/-- C55 fails when ConnectEx succeeds at once: its packet calls a write handler that was never set. -/
theorem connect_at_once : ∃ s, run initial [.enter, .connect .atOnce, .leave, .continue, .leave, .writeEvent] = some s ∧
    s.log = [.connect 0, .connected 0 SUCCESS, .connectDone 0 SUCCESS] ∧ s.ub = true := ⟨_, rfl, rfl, rfl⟩

/-- ... and `cio_socket_connect` uses the socket after a connect handler that closes it. -/
theorem connect_at_once_closed : ∃ s, run initial [.enter, .connect .atOnce, .close, .leave, .continue] = some s ∧
    s.log = [.connect 0, .connected 0 SUCCESS, .connectDone 0 SUCCESS, .close, .closed, .hook] ∧ s.ub = true := ⟨_, rfl, rfl, rfl⟩

/-- C55 fails for a write after a failed connect: the connect handler is called again, in place of the write handler. -/
theorem write_after_failed_connect : ∃ s, run initial [.enter, .connect .pending, .leave, .connected (-10061), .writeEvent, .write 5 true, .leave, .sendFailed (-10057), .writeEvent] = some s ∧
    s.log = [.connect 0, .connected 0 (-10061), .connectDone 0 (-10061), .write 1 5, .sendFailed 1 (-10057), .connectDone 0 (-10057)] := ⟨_, rfl, rfl⟩

/-- C55 fails for a read into a full buffer: the end of the connection is reported. -/
theorem full_buffer_reported_as_end : ∃ s, run initial [.enter, .read 0 true, .leave, .received [], .readEvent] = some s ∧
    s.log = [.read 0 0, .received 0 [], .readDone 0 EOF []] := ⟨_, rfl, rfl⟩

/-- C55 fails when two reads, or a write and a connect, run at the same time. -/
theorem two_reads : ∃ s, run initial [.enter, .read 10 true, .read 10 true] = some s ∧ s.ub = true := ⟨_, rfl, rfl⟩
theorem write_while_connecting : ∃ s, run initial [.enter, .connect .pending, .write 10 true] = some s ∧ s.ub = true := ⟨_, rfl, rfl⟩

/-! ### Non-vacuity -/

/-- Checks of the rules. -/
def startR : Obs → Option Nat
  | .read k _ => some k
  | _ => none

def startW : Obs → Option Nat
  | .write k _ | .connect k => some k
  | _ => none

def allAnswered (f : Obs → Option Nat) (l : List Obs) : Bool := l.all fun o => match f o with | some k => answers k l == 1 | none => true

def rulesB (s : St) : Move → Bool
  | .read space _ => !(s.log.contains .close) && decide (0 < space) && allAnswered startR s.log
  | .write _ _ => !(s.log.contains .close) && allAnswered startW s.log && s.log.all fun o => match o with | .connectDone _ e => e == SUCCESS | _ => true
  | .connect r => !(s.log.contains .close) && allAnswered startW s.log && r != .atOnce
  | .close => !(s.log.contains .close) && allAnswered reportOf s.log && allAnswered (fun o => match o with | .connect k => some k | _ => none) s.log
  | _ => true

theorem allAnswered_iff {f : Obs → Option Nat} {l : List Obs} (h : allAnswered f l = true) : ∀ o ∈ l, ∀ k, f o = some k → answers k l = 1 := by
  intro o ho k hk
  unfold allAnswered at h
  rw [List.all_eq_true] at h
  have := h o ho
  rw [hk] at this
  simpa using this

theorem rulesB_sound {s : St} {m : Move} (h : rulesB s m = true) : Rules s m := by
  cases m with
  | read space ok =>
    simp only [rulesB, Bool.and_eq_true, Bool.not_eq_true', List.contains_eq_mem, decide_eq_false_iff_not, decide_eq_true_eq] at h
    exact ⟨h.1.1, h.1.2, fun k ⟨n, hk⟩ => allAnswered_iff h.2 _ hk k rfl⟩
  | write len ok =>
    simp only [rulesB, Bool.and_eq_true, Bool.not_eq_true', List.contains_eq_mem, decide_eq_false_iff_not] at h
    refine ⟨h.1.1, fun k hk => ?_, fun k e hk => ?_⟩
    · rcases hk with ⟨n, hk⟩ | hk
      · exact allAnswered_iff h.1.2 _ hk k rfl
      · exact allAnswered_iff h.1.2 _ hk k rfl
    · have := List.all_eq_true.mp h.2 _ hk
      simpa using this
  | connect r =>
    simp only [rulesB, Bool.and_eq_true, Bool.not_eq_true', List.contains_eq_mem, decide_eq_false_iff_not] at h
    refine ⟨h.1.1, fun k hk => ?_, by simpa using h.2⟩
    rcases hk with ⟨n, hk⟩ | hk
    · exact allAnswered_iff h.1.2 _ hk k rfl
    · exact allAnswered_iff h.1.2 _ hk k rfl
  | close =>
    simp only [rulesB, Bool.and_eq_true, Bool.not_eq_true', List.contains_eq_mem, decide_eq_false_iff_not] at h
    exact ⟨h.1.1, allAnswered_iff h.1.2, fun k hk => allAnswered_iff h.2 _ hk k rfl⟩
  | _ => trivial

/-- Run within the rules. -/
def runRules : St → List Move → Option St
  | s, [] => some s
  | s, m :: ms => if rulesB s m then (step s m).bind fun s => runRules s ms else none

theorem reach_runRules (ms : List Move) : ∀ {s s' : St}, Reach Rules s → runRules s ms = some s' → Reach Rules s' := by
  induction ms with
  | nil => intro s s' h hr; cases hr; exact h
  | cons x ms ih =>
    intro s s' h hr
    unfold runRules at hr
    split at hr
    · rename_i hb
      rw [Option.bind_eq_some_iff] at hr
      obtain ⟨t, h1, h2⟩ := hr
      exact ih (.step h (rulesB_sound hb) h1) h2
    · cases hr

/-- Connect, read and write at the same time, an end of the connection, a failed write, a refused read; closing with both under way. -/
def exampleMoves : List Move :=
  [.enter, .connect .failed, .connect .pending, .leave, .connected 0, .writeEvent, .read 4 true, .write 5 true, .leave, .sent 3, .received [1, 2], .writeEvent, .write 2 true, .leave,
   .readEvent, .read 4 false, .read 2 true, .leave, .received [3], .readEvent, .read 1 true, .leave, .sendFailed (-10054), .writeEvent, .write 1 true, .close, .leave]

example : ∃ s, Reach Rules s ∧ s.stack = [] ∧ .hook ∉ s.log ∧ s.log =
    [.refused 0, .connect 1, .connected 1 0, .connectDone 1 0, .read 2 4, .write 3 5, .sent 3 3, .received 2 [1, 2], .writeDone 3 0 3, .write 4 2,
     .readDone 2 0 [1, 2], .refused 5, .read 6 2, .received 6 [3], .readDone 6 0 [3], .read 7 1, .sendFailed 4 (-10054), .writeDone 4 (-10054) 0, .write 8 1, .close] := by
  refine ⟨(runRules initial exampleMoves).getD initial, reach_runRules exampleMoves .init ?_, ?_, ?_, ?_⟩ <;> decide

example : ∃ s, Reach Rules s ∧ s.alive = false ∧ .hook ∈ s.log := by
  refine ⟨(runRules initial (exampleMoves ++ [.writeEvent, .readEvent])).getD initial, reach_runRules (exampleMoves ++ [.writeEvent, .readEvent]) .init ?_, ?_, ?_⟩ <;> decide

example : ∃ s, Reach Rules s ∧ .close ∉ s.log ∧ s.stack = [] ∧ StartedR 2 s.log ∧ .write 3 5 ∈ s.log ∧ answers 2 s.log = 0 ∧ answers 3 s.log = 0 := by
  refine ⟨(runRules initial (exampleMoves.take 9)).getD initial, reach_runRules (exampleMoves.take 9) .init ?_, ?_, ?_, ⟨4, ?_⟩, ?_, ?_, ?_⟩ <;> decide

end Cio.Windows.Socket
