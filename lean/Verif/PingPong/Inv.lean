import Verif.PingPong.Model
/-
C114: an invariant of the ping-pong client.
-/
namespace Cio.PingPong
open BufferedRead (UAct Handler Job World Call)
open StreamSocket (Sys Ev Write step Allowed follow settle answer)
open BufferedWrite (FirstEndsEarly flat)
open Echo (ToldSuccess elem)

/-! ### What the loop does -/

theorem pings_concat {w w' : World} {c : Call} (h : w'.calls = w.calls ++ [c]) : pings w' = pings w + if c.err = SUCCESS then 1 else 0 := by
  unfold pings
  rw [h, List.countP_append, List.countP_singleton]
  simp

theorem pings_same {w w' : World} (h : w'.calls = w.calls) : pings w' = pings w := by unfold pings; rw [h]

/-- The stream behind a handler that has closed it. -/
structure Ended (w w' : World) (c : Call) : Prop where
  calls : w'.calls = w.calls ++ [c]
  closed : w'.closed = true
  job : w'.job = none
  rb : w'.rb = w.rb
  consumed : w'.consumed = w.consumed
  waiting : w'.waiting = w.waiting
  misuse : w'.misuse = w.misuse

theorem call_close {max : Nat} {w : World} {j : Job} {e : Err} {n : Nat} (he : e ≠ SUCCESS ∨ max ≤ pings w + 1) :
    (BufferedRead.callHandler (readHandler max) w j e n).2 = .closed ∧ Ended w (BufferedRead.callHandler (readHandler max) w j e n).1 ⟨j, e, n, w.rb.unread, w.consumed, w.received, w.rb.fetch⟩ := by
  unfold BufferedRead.callHandler
  dsimp only
  have : readHandler max { w with job := none, callbackIsRunning := w.callbackIsRunning + 1, calls := w.calls ++ [⟨j, e, n, w.rb.unread, w.consumed, w.received, w.rb.fetch⟩] } = [.close] := by
    unfold readHandler
    dsimp only
    rw [List.getLast?_concat]
    dsimp only
    by_cases hs : e = SUCCESS
    · rw [if_pos hs, if_neg]
      rw [pings_concat (w := w) rfl, if_pos hs]
      rcases he with he | he
      · exact absurd hs he
      · omega
    · rw [if_neg hs]
  rw [this]
  simp only [List.foldl_cons, List.foldl_nil, BufferedRead.act, BufferedRead.close]
  rw [if_neg (show ¬ (w.callbackIsRunning + 1 = 0) by omega)]
  simp only [Nat.add_sub_cancel, if_true]
  exact ⟨trivial, rfl, rfl, rfl, rfl, rfl, rfl, rfl⟩

theorem call_success {max : Nat} {w : World} {j : Job} {n : Nat} (hs : w.shallClose = false) (hm : pings w + 1 < max) :
    BufferedRead.callHandler (readHandler max) w j SUCCESS n =
      ({ w with job := none, calls := w.calls ++ [⟨j, SUCCESS, n, w.rb.unread, w.consumed, w.received, w.rb.fetch⟩] }, .open) := by
  unfold BufferedRead.callHandler
  dsimp only
  have : readHandler max { w with job := none, callbackIsRunning := w.callbackIsRunning + 1, calls := w.calls ++ [⟨j, SUCCESS, n, w.rb.unread, w.consumed, w.received, w.rb.fetch⟩] } = [] := by
    unfold readHandler
    dsimp only
    rw [List.getLast?_concat]
    dsimp only
    rw [if_pos rfl, if_pos]
    rw [pings_concat (w := w) rfl, if_pos rfl]
    exact hm
  rw [this]
  simp only [List.foldl_nil, Nat.add_sub_cancel, hs]
  rfl

/-- One round of `run_read` while the client reads. -/
theorem loop_reading {max unit sz : Nat} {w w' : World} (hi : BufferedRead.Inv sz w) (hj : w.job = some (.atLeast unit)) (hsh : w.shallClose = false)
    (h : BufferedRead.step (readHandler max) w (.loop SUCCESS) = some w') :
    (∃ c, w' = { w with job := none, calls := w.calls ++ [c] } ∧ c.err = SUCCESS ∧ c.num = unit ∧ c.view = w.rb.unread ∧ c.consumed = w.consumed ∧ unit ≤ w.rb.unread.length ∧ pings w + 1 < max) ∨
    (∃ c, Ended w w' c ∧ c.consumed = w.consumed ∧ c.view = w.rb.unread ∧ (c.err ≠ SUCCESS ∨ (c.err = SUCCESS ∧ c.num = unit ∧ max ≤ pings w + 1 ∧ unit ≤ w.rb.unread.length))) ∨
    (w'.calls = w.calls ∧ w'.waiting = true ∧ w'.job = w.job ∧ w'.closed = w.closed ∧ w'.shallClose = false ∧ w'.rb.unread = w.rb.unread ∧ w'.consumed = w.consumed ∧
      w'.misuse = w.misuse) := by
  unfold BufferedRead.step at h
  dsimp only at h
  by_cases hl : w.looping = true
  case neg => rw [if_neg hl] at h; cases h
  rw [if_pos hl] at h
  injection h with h
  subst h
  have hlen := BufferedRead.unread_length sz w.rb hi.core.rb
  unfold BufferedRead.loopIter
  rw [hj]
  dsimp only
  by_cases he : w.lastError ≠ SUCCESS
  · have hr : BufferedRead.runJob (readHandler max) w (.atLeast unit) = BufferedRead.callHandler (readHandler max) w (.atLeast unit) w.lastError 0 := by
      unfold BufferedRead.runJob; rw [if_pos he]
    obtain ⟨c1, c2⟩ := call_close (max := max) (w := w) (j := .atLeast unit) (n := 0) (Or.inl he)
    rw [hr]
    generalize BufferedRead.callHandler (readHandler max) w (.atLeast unit) w.lastError 0 = z at c1 c2
    obtain ⟨z1, z2⟩ := z
    dsimp only at c1 c2
    subst c1
    exact Or.inr (Or.inl ⟨_, ⟨c2.calls, c2.closed, c2.job, c2.rb, c2.consumed, c2.waiting, c2.misuse⟩, rfl, rfl, Or.inl he⟩)
  · by_cases ha : unit ≤ w.rb.unreadBytes
    · have hr : BufferedRead.runJob (readHandler max) w (.atLeast unit) = BufferedRead.callHandler (readHandler max) w (.atLeast unit) SUCCESS unit := by
        unfold BufferedRead.runJob; rw [if_neg he]; dsimp only; rw [if_pos ha]
      rw [hr]
      by_cases hm : pings w + 1 < max
      · rw [call_success hsh hm]
        exact Or.inl ⟨_, rfl, rfl, rfl, rfl, rfl, by rw [hlen]; exact ha, hm⟩
      · obtain ⟨c1, c2⟩ := call_close (max := max) (w := w) (j := .atLeast unit) (e := SUCCESS) (n := unit) (Or.inr (by omega))
        generalize BufferedRead.callHandler (readHandler max) w (.atLeast unit) SUCCESS unit = z at c1 c2
        obtain ⟨z1, z2⟩ := z
        dsimp only at c1 c2
        subst c1
        exact Or.inr (Or.inl ⟨_, ⟨c2.calls, c2.closed, c2.job, c2.rb, c2.consumed, c2.waiting, c2.misuse⟩, rfl, rfl, Or.inr ⟨rfl, rfl, by omega, by rw [hlen]; exact ha⟩⟩)
    · have hr : BufferedRead.runJob (readHandler max) w (.atLeast unit) = (w, .again) := by
        unfold BufferedRead.runJob; rw [if_neg he]; dsimp only; rw [if_neg ha]
      rw [hr]
      dsimp only
      have rs : ∀ v : World, BufferedRead.readSome (readHandler max) v (.atLeast unit) SUCCESS = { v with waiting := true } := fun v => by
        unfold BufferedRead.readSome; rw [if_neg (by simp)]
      unfold BufferedRead.fillBuffer
      by_cases h1 : w.rb.spaceAvailable = 0
      · rw [if_pos h1]
        by_cases h2 : w.rb.fetch = 0
        · rw [if_pos h2]
          have hr2 : BufferedRead.runJob (readHandler max) { w with lastError := MESSAGE_TOO_LONG } (.atLeast unit) =
              BufferedRead.callHandler (readHandler max) { w with lastError := MESSAGE_TOO_LONG } (.atLeast unit) MESSAGE_TOO_LONG 0 := by
            unfold BufferedRead.runJob; rw [if_pos (by show MESSAGE_TOO_LONG ≠ SUCCESS; decide)]
          rw [hr2]
          obtain ⟨-, c2⟩ := call_close (max := max) (w := { w with lastError := MESSAGE_TOO_LONG }) (j := .atLeast unit) (e := MESSAGE_TOO_LONG) (n := 0) (Or.inl (by decide))
          exact Or.inr (Or.inl ⟨_, ⟨c2.calls, c2.closed, c2.job, c2.rb, c2.consumed, c2.waiting, c2.misuse⟩, rfl, rfl, Or.inl (show MESSAGE_TOO_LONG ≠ SUCCESS by decide)⟩)
        · rw [if_neg h2, rs]
          exact Or.inr (Or.inr ⟨rfl, rfl, hj.symm ▸ rfl, rfl, hsh, (BufferedRead.compact_ok sz w.rb hi.core.rb).2, rfl, rfl⟩)
      · rw [if_neg h1, rs]
        exact Or.inr (Or.inr ⟨rfl, rfl, hj.symm ▸ rfl, rfl, hsh, rfl, rfl, rfl⟩)

/-- One round of `run_read` otherwise. -/
theorem loop_idle {max : Nat} {w w' : World} (hj : w.job = none) (h : BufferedRead.step (readHandler max) w (.loop SUCCESS) = some w') : w' = { w with looping := false } := by
  unfold BufferedRead.step at h
  dsimp only at h
  split at h
  · injection h with h; subst h
    unfold BufferedRead.loopIter
    rw [hj]
  · cases h

/-! ### Invariant -/

/-- What is being written: the greeting at first, then what was read last. -/
def now (hello : List UInt8) (w : World) : List UInt8 := if w.calls = [] then hello else w.rb.unread.take hello.length

/-- What had been written before that. -/
def before (hello : List UInt8) (w : World) : List UInt8 := if w.calls = [] then [] else hello ++ w.consumed

/-- What has been written so far. -/
def Hist (hello : List UInt8) (p : Phase) (s : Sys) : Prop :=
  ∃ good rest, s.done = good ++ rest ∧ (∀ x ∈ good, ToldSuccess x) ∧
    match p with
    | .start | .toWrite _ | .writing => rest = [] ∧ good.flatMap Write.asked = before hello s.br
    | .toConsume => good.flatMap Write.asked = before hello s.br ∧ ∃ x, rest = [x] ∧ ToldSuccess x ∧ x.chain = [⟨elem, now hello s.br⟩]
    | .toRead | .reading => rest = [] ∧ good.flatMap Write.asked = hello ++ s.br.consumed
    | .toClose => good.flatMap Write.asked = before hello s.br ∧ ∃ x, rest = [x] ∧ ¬ ToldSuccess x ∧ x.chain = [⟨elem, now hello s.br⟩]
    | .stopped => (rest = [] ∧ good.flatMap Write.asked = hello ++ s.br.consumed ∧ s.br.closed = true ∧ ((∃ x ∈ s.br.calls, x.err ≠ SUCCESS) ∨ (0 < pings s.br ∧ s.br.consumed.length + hello.length = hello.length * pings s.br ∧ hello.length ≤ s.br.rb.unread.length))) ∨
        (good.flatMap Write.asked = before hello s.br ∧ ∃ x, rest = [x] ∧ ¬ ToldSuccess x ∧ x.chain = [⟨elem, now hello s.br⟩])

/-- How many bytes that were counted are not consumed yet. -/
def held (unit : Nat) (w : World) : Phase → Nat
  | .toWrite _ | .writing | .toConsume | .toClose => if w.calls = [] then 0 else unit
  | _ => 0

structure Inv (hello : List UInt8) (max : Nat) (p : Phase) (s : Sys) : Prop where
  misuse : s.br.misuse = false
  shall : s.br.closed = false → s.br.shallClose = false
  closed : s.br.closed = true → p = .stopped
  cur : s.cur.isSome = true ↔ p = .writing
  job : s.br.job = if p = .reading then some (.atLeast hello.length) else none
  wait : s.br.waiting = true → p = .reading
  start : p = .start → s.br.calls = []
  fresh : s.br.calls = [] → s.br.consumed = []
  toWrite : ∀ d, p = .toWrite d → s.br.calls ≠ [] ∧ d = s.br.rb.unread.take hello.length
  writing : p = .writing → ∀ x, s.cur = some x → x.chain = [⟨elem, now hello s.br⟩]
  enough : (∃ d, p = .toWrite d) ∨ p = .writing ∨ p = .toConsume → s.br.calls ≠ [] → hello.length ≤ s.br.rb.unread.length
  hist : Hist hello p s
  count : p ≠ .stopped → s.br.consumed.length + held hello.length s.br p = hello.length * pings s.br
  more : p ≠ .stopped → pings s.br = 0 ∨ pings s.br < max
  most : pings s.br ≤ 1 ∨ pings s.br ≤ max
  errs : ∀ x ∈ s.br.calls, x.err ≠ SUCCESS → s.br.closed = true
  nums : ∀ x ∈ s.br.calls, x.err = SUCCESS → x.num = hello.length
  units : ∀ x ∈ s.br.calls, hello.length ∣ x.consumed.length
  why : p = .stopped → (s.br.closed = true ∧ ((∃ x ∈ s.br.calls, x.err ≠ SUCCESS) ∨ max ≤ pings s.br)) ∨ ∃ x ∈ s.done, ¬ ToldSuccess x

theorem init_inv (hello : List UInt8) (max : Nat) (c : Bool) (mem : List UInt8) : Inv hello max .start (StreamSocket.initial c mem) := by
  refine { misuse := rfl, shall := fun _ => rfl, closed := (fun q => by cases q), cur := ⟨(fun q => by cases q), (fun q => by cases q)⟩, job := rfl, wait := (fun q => by cases q), start := fun _ => rfl, fresh := fun _ => rfl, toWrite := (fun d q => by cases q), writing := (fun q => by cases q), enough := (fun _ q => absurd rfl q), hist := ⟨[], [], rfl, (fun x hx => by cases hx), rfl, rfl⟩, count := fun _ => rfl, more := fun _ => Or.inl rfl, most := Or.inl (Nat.zero_le _), errs := (fun x hx => by cases hx), nums := (fun x hx => by cases hx), units := (fun x hx => by cases hx), why := (fun q => by cases q) }

/-- The same application, another system that agrees on what matters. -/
theorem Inv.same {hello : List UInt8} {max : Nat} {p : Phase} {s t : Sys} (h : Inv hello max p s) (e1 : t.br.misuse = s.br.misuse) (e2 : t.br.closed = s.br.closed)
    (e3 : t.br.shallClose = s.br.shallClose) (e4 : t.cur = s.cur) (e5 : t.br.job = s.br.job) (e6 : t.br.waiting = true → p = .reading)
    (e7 : t.br.rb.unread = s.br.rb.unread ∨ p = .reading) (e8 : t.done = s.done) (e9 : t.br.consumed = s.br.consumed) (e10 : t.br.calls = s.br.calls) : Inv hello max p t := by
  have ep := pings_same e10
  have eb : before hello t.br = before hello s.br := by unfold before; rw [e9, e10]
  have en : t.br.rb.unread = s.br.rb.unread → now hello t.br = now hello s.br := fun q => by unfold now; rw [q, e10]
  have eh : held hello.length t.br p = held hello.length s.br p := by unfold held; rw [e10]
  refine { misuse := by rw [e1]; exact h.misuse, shall := by rw [e2, e3]; exact h.shall, closed := by rw [e2]; exact h.closed, cur := by rw [e4]; exact h.cur, job := by rw [e5]; exact h.job, wait := e6, start := by rw [e10]; exact h.start, fresh := by rw [e9, e10]; exact h.fresh, toWrite := ?_, writing := ?_, enough := ?_, hist := ?_, count := by rw [e9, ep, eh]; exact h.count, more := by rw [ep]; exact h.more, most := by rw [ep]; exact h.most, errs := by rw [e10, e2]; exact h.errs, nums := by rw [e10]; exact h.nums, units := by rw [e10]; exact h.units, why := by rw [e2, e8, e10, ep]; exact h.why }
  · intro d hd
    rcases e7 with e7 | e7
    · rw [e7, e10]; exact h.toWrite d hd
    · rw [hd] at e7; cases e7
  · intro hp
    rcases e7 with e7 | e7
    · rw [en e7, e4]; exact h.writing hp
    · rw [hp] at e7; cases e7
  · intro hp
    rcases e7 with e7 | e7
    · rw [e7, e10]; exact h.enough hp
    · rw [e7] at hp; rcases hp with ⟨d, hp⟩ | hp | hp <;> cases hp
  · obtain ⟨good, rest, g1, g2, g4⟩ := h.hist
    refine ⟨good, rest, by rw [e8]; exact g1, g2, ?_⟩
    rcases e7 with e7 | e7
    · have en := en e7
      cases p <;> simp only [eb, en, e9, e2, ep, e10, e7] <;> exact g4
    · subst e7
      simp only [e9]
      exact g4

/-- Nothing but the socket changes. -/
theorem Inv.sockOnly {hello : List UInt8} {max : Nat} {p : Phase} {s : Sys} (h : Inv hello max p s) (k : Socket.St) : Inv hello max p { s with sock := k } :=
  h.same rfl rfl rfl rfl rfl h.wait (Or.inl rfl) rfl rfl rfl

end Cio.PingPong
