import Verif.WsQueue.Core
/-
The invariant of the write queue.
-/
namespace Cio.WsQueue

/-- Each accepted write is completed, about to be completed (`x`) or queued, exactly once. -/
def Cnt (w : World) (q : List Kind) (x : List Nat) : Prop :=
  ∀ t, (completedT w.log).count t + x.count t + (qT w q).count t = if t < w.tickets then 1 else 0

/-- What was sent, followed by what is to be sent, is in order. -/
def Ord (w : World) (u : List Nat) : Prop :=
  ((sentT w.log).reverse ++ u).Pairwise (· < ·) ∧ ∀ t ∈ (sentT w.log).reverse ++ u, t < w.tickets

theorem Ord.nil {w : World} {u : List Nat} (h : Ord w u) : Ord w [] := by
  refine ⟨?_, fun t ht => h.2 t ?_⟩
  · rw [List.append_nil]; exact (List.pairwise_append.mp h.1).1
  · rw [List.append_nil] at ht; exact List.mem_append_left _ ht

theorem Ord.congr {w w' : World} {u : List Nat} (h : Ord w u) (hl : sentT w'.log = sentT w.log) (ht : w.tickets ≤ w'.tickets) : Ord w' u := by
  unfold Ord; rw [hl]; exact ⟨h.1, fun t hm => Nat.lt_of_lt_of_le (h.2 t hm) ht⟩

def isCalm : Item → Bool
  | .user _ => true
  | .input => true
  | .sendNext _ => true
  | _ => false

/-- Only items that do nothing by themselves but send the next job. -/
def CalmSt (st : List Item) : Prop := ∀ i ∈ st, isCalm i = true

def someOf : Item → Option Kind
  | .sendNext (some k) => some k
  | _ => none

/-- The jobs remembered by `message_written` as to be sent next. -/
def somes (st : List Item) : List Kind := st.filterMap someOf

theorem somes_cons_none {i : Item} {st : List Item} (h : someOf i = none) : somes (i :: st) = somes st := by simp [somes, h]
theorem somes_cons_some {k : Kind} {st : List Item} : somes (.sendNext (some k) :: st) = k :: somes st := by simp [somes, someOf]
theorem CalmSt.cons {i : Item} {st : List Item} (hi : isCalm i = true) (h : CalmSt st) : CalmSt (i :: st) := by
  intro x hx
  rcases List.mem_cons.mp hx with rfl | hx
  · exact hi
  · exact h x hx
theorem CalmSt.tail {i : Item} {st : List Item} (h : CalmSt (i :: st)) : CalmSt st := fun x hx => h x (List.mem_cons_of_mem _ hx)

/-- Facts that hold at all times. -/
structure Base (w : World) (q : List Kind) (x : List Nat) : Prop where
  core : Core w q
  cnt : Cnt w q x
  ord : Ord w []
  c1 : (sentK w.log).count .close ≤ 1
  c2 : w.selfClose = false → .close ∈ sentK w.log → (sentK w.log).head? = some .close
  succ : ∀ t, (t, .success) ∈ completedR w.log → t ∈ sentT w.log

/-- Changes that do not matter to `Base`. -/
theorem Base.congr {w w' : World} {q : List Kind} {x : List Nat} (b : Base w q x) (hj : w'.jobs = w.jobs) (hf : w'.first = w.first) (hl : w'.last = w.last)
    (hs : w'.selfClose = w.selfClose) (he : w.closedByError = true → w'.closedByError = true) (ht : w'.timer = true → w.timer = true)
    (h1 : completedR w'.log = completedR w.log) (h2 : sentT w'.log = sentT w.log) (h3 : sentK w'.log = sentK w.log) (h4 : w'.tickets = w.tickets) :
    Base w' q x where
  core := b.core.congr hj hf hl hs he ht
  cnt := by
    intro t
    rw [completedT, h1, h4, qT_congr (w := w) (w' := w') (by rw [hj]; intros; rfl)]
    exact b.cnt t
  ord := b.ord.congr h2 (by omega)
  c1 := by rw [h3]; exact b.c1
  c2 := by rw [h3, hs]; exact b.c2
  succ := by rw [h1, h2]; exact b.succ

/-- Tokens: a read is outstanding, or the user has the word, or an answer to a ping is queued; none of these when the peer's close is answered. -/
structure Tok (w : World) (q : List Kind) : Prop where
  t1 : w.reading = true → w.turn = false
  t2 : .pong ∈ q → (w.jobs .pong).handler = .pongWritten → w.reading = false ∧ w.turn = false
  t3 : .close ∈ q → (w.jobs .close).handler = .null → w.reading = false ∧ w.turn = false ∧ ¬ (.pong ∈ q ∧ (w.jobs .pong).handler = .pongWritten)

inductive Sending (w : World) (st : List Item) : List Kind → List Kind → Prop where
  | idle : w.pend = false → somes st = [] → Sending w st [] []
  | flight (k : Kind) (u : List Kind) : w.pend = true → somes st = [] → w.bsHandler = (w.jobs k).streamHandler →
      (∀ t ∈ ticketOf (w.jobs k).handler, t ∈ sentT w.log) → Sending w st (k :: u) u
  | wait (k : Kind) (u : List Kind) : w.pend = false → somes st = [k] → Sending w st (k :: u) (k :: u)

/-- Nobody has failed or closed; `u` are the jobs whose frames are still to be sent. -/
structure Calm (w : World) (st : List Item) (q u : List Kind) : Prop where
  base : Base w q []
  calm : CalmSt st
  cbe : w.closedByError = false
  open_ : w.closes = 0
  send : Sending w st q u
  ord : Ord w (qT w u)
  c1 : (sentK w.log).count .close + u.count .close ≤ 1
  c2 : w.selfClose = false → .close ∈ sentK w.log → w.pend = true ∧ q.head? = some .close
  tok : Tok w q

def pre : Bool → List Item
  | true => [.user true]
  | false => []

inductive Phase (w : World) : List Item → Prop where
  | calm (st : List Item) (q u : List Kind) : Calm w st q u → Phase w st
  /-- `handle_error` -/
  | errAbort (b : Bool) (rest : List Item) (q : List Kind) : Base w q [] → w.closedByError = true → w.selfClose = false → w.closes = 0 → CalmSt rest →
      .close ∉ sentK w.log → (∀ k ∈ somes rest, k ≠ .close ∧ w.reading = false) → Phase w (pre b ++ .abort :: .errClose :: rest)
  | errClose (rest : List Item) : Base w [] [] → w.closedByError = true → w.selfClose = false → w.closes = 0 → CalmSt rest →
      .close ∉ sentK w.log → (∀ k ∈ somes rest, k ≠ .close ∧ w.reading = false) → Phase w (.errClose :: rest)
  /-- the close frame of `handle_error` is being sent -/
  | errored (st : List Item) (q' : List Kind) : Base w (.close :: q') [] → w.closedByError = true → w.selfClose = false → w.closes = 0 → CalmSt st →
      w.pend = true → w.bsHandler = .closeWrittenImmediate → (w.jobs .close).handler = .null →
      (q' = [] ∨ (q' = [.pong] ∧ (w.jobs .pong).handler = .pongWritten ∧ w.reading = false)) →
      (∀ k ∈ somes st, k ≠ .close ∧ w.reading = false ∧ q' = []) → Phase w st
  | immAbort (res : Res) (rest : List Item) (q : List Kind) : Base w q [] → w.closedByError = true → w.selfClose = false → w.closes = 0 → CalmSt rest →
      (∀ k ∈ q, (w.jobs k).handler = .pongWritten) → (w.jobs .close).handler = .null → Phase w (.abort :: .callClose res :: .closeNow :: rest)
  | immCall (res : Res) (rest : List Item) : Base w [] [] → w.closedByError = true → w.selfClose = false → w.closes = 0 → CalmSt rest →
      (w.jobs .close).handler = .null → Phase w (.callClose res :: .closeNow :: rest)
  /-- the user's close frame has been written -/
  | closeAbort (b : Bool) (res : Res) (rest : List Item) (q : List Kind) (t : Nat) : Base w q [t] → (w.jobs .close).handler = .user t → .close ∉ q →
      w.closedByError = false → w.selfClose = true → w.closes = 0 → w.pend = false → CalmSt rest → somes rest = [] → (w.reading = true → w.turn = false) →
      t ∈ sentT w.log → Phase w (pre b ++ .abort :: .callClose res :: rest)
  | closeCall (res : Res) (rest : List Item) (t : Nat) : Base w [] [t] → (w.jobs .close).handler = .user t →
      w.closedByError = false → w.selfClose = true → w.closes = 0 → w.pend = false → CalmSt rest → somes rest = [] → (w.reading = true → w.turn = false) →
      t ∈ sentT w.log → Phase w (.callClose res :: rest)
  /-- the answer to the peer's close frame has been written -/
  | respAbort (b : Bool) (rest : List Item) (q : List Kind) : Base w q [] → .close ∉ q → w.closedByError = false → w.selfClose = false → w.closes = 0 →
      CalmSt rest → ¬ (.pong ∈ q ∧ (w.jobs .pong).handler = .pongWritten) → Phase w (pre b ++ .abort :: .closeNow :: rest)
  | closing (rest : List Item) (q : List Kind) : Base w q [] → w.closes = 0 → CalmSt rest → w.timer = false → (w.selfClose = false → qT w q = []) →
      Phase w (.closeNow :: rest)
  | dead (st : List Item) (q : List Kind) : Base w q [] → w.closes = 1 → CalmSt st → w.timer = false → (w.selfClose = false → qT w q = []) → Phase w st

/-- What the theorems claim of every state. -/
structure J (w : World) : Prop where
  once : ∀ t, (completedT w.log).count t ≤ 1
  known : ∀ t ∈ completedT w.log, t < w.tickets
  knownS : ∀ t ∈ sentT w.log, t < w.tickets
  succ : ∀ t, (t, .success) ∈ completedR w.log → t ∈ sentT w.log
  ord : (sentT w.log).Pairwise (· > ·)
  c1 : (sentK w.log).count .close ≤ 1
  c2 : w.selfClose = false → .close ∈ sentK w.log → (sentK w.log).head? = some .close
  closes : w.closes ≤ 1

theorem Base.j {w : World} {q : List Kind} {x : List Nat} (b : Base w q x) (hc : w.closes ≤ 1) : J w where
  once := by intro t; have := b.cnt t; split at this <;> omega
  known := by
    intro t ht
    have := b.cnt t
    have h1 : 0 < (completedT w.log).count t := List.count_pos_iff.mpr ht
    split at this
    · assumption
    · omega
  knownS := by
    intro t ht
    exact b.ord.2 t (by simpa using ht)
  succ := b.succ
  ord := by
    have := b.ord.1
    rw [List.append_nil, List.pairwise_reverse] at this
    exact this
  c1 := b.c1
  c2 := b.c2
  closes := hc

theorem Phase.j {w : World} {st : List Item} (p : Phase w st) : J w := by
  cases p with
  | calm _ q u c => exact c.base.j (by have := c.open_; omega)
  | errAbort b rest q h _ _ h0 => exact h.j (by omega)
  | errClose rest h _ _ h0 => exact h.j (by omega)
  | errored _ q' h _ _ h0 => exact h.j (by omega)
  | immAbort res rest q h _ _ h0 => exact h.j (by omega)
  | immCall res rest h _ _ h0 => exact h.j (by omega)
  | closeAbort b res rest q t h _ _ _ _ h0 => exact h.j (by omega)
  | closeCall res rest t h _ _ _ h0 => exact h.j (by omega)
  | respAbort b rest q h _ _ _ h0 => exact h.j (by omega)
  | closing rest q h h0 => exact h.j (by omega)
  | dead _ q h h0 => exact h.j (by omega)

/-- The invariant: a failure after the user began to close, or undefined behaviour, or one of the phases. -/
def Inv (s : State) : Prop :=
  (s.w.closedByError = true ∧ s.w.selfClose = true) ∨ (s.w.ub = true ∧ J s.w ∧ (s.w.closedByError = true ∨ s.w.closes ≠ 0)) ∨ (s.w.ub = false ∧ Phase s.w s.stack)

theorem Inv.fault {s : State} (h : J s.w) (hc : s.w.closedByError = true ∨ s.w.closes ≠ 0) : Inv (fault s) := by
  refine .inr (.inl ⟨rfl, ?_, hc⟩)
  exact ⟨h.once, h.known, h.knownS, h.succ, h.ord, h.c1, h.c2, h.closes⟩

end Cio.WsQueue
