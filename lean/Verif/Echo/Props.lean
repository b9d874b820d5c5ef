import Verif.Echo.Model
import Verif.StreamSocket.Control
/-
C98: the echo server of examples/socket_ping_pong.c.
-/
namespace Cio.Echo
open BufferedRead (UAct Handler Job World Call)
open StreamSocket (Sys Ev Write step Allowed follow settle answer)
open BufferedWrite (FirstEndsEarly flat)

/-- `server_handle_write` was told of success. -/
def ToldSuccess (x : Write) : Prop := ∃ ch, x.world.calls.getLast? = some (SUCCESS, ch)

/-! ### What the loop does -/

theorem call_success {w : World} {j : Job} {n : Nat} (hs : w.shallClose = false) :
    BufferedRead.callHandler readHandler w j SUCCESS n =
      ({ w with job := none, calls := w.calls ++ [⟨j, SUCCESS, n, w.rb.unread, w.consumed, w.received, w.rb.fetch⟩] }, .open) := by
  unfold BufferedRead.callHandler
  dsimp only
  have : readHandler { w with job := none, callbackIsRunning := w.callbackIsRunning + 1, calls := w.calls ++ [⟨j, SUCCESS, n, w.rb.unread, w.consumed, w.received, w.rb.fetch⟩] } = [] := by
    unfold readHandler
    dsimp only
    rw [List.getLast?_concat]
    simp
  rw [this]
  simp only [List.foldl_nil, Nat.add_sub_cancel, hs]
  rfl

/-- The stream behind a handler that was told of an error. -/
structure Ended (w w' : World) : Prop where
  calls : ∃ c, w'.calls = w.calls ++ [c] ∧ c.err ≠ SUCCESS
  closed : w'.closed = true
  job : w'.job = none
  rb : w'.rb = w.rb
  consumed : w'.consumed = w.consumed
  waiting : w'.waiting = w.waiting
  misuse : w'.misuse = w.misuse

theorem call_error {w : World} {j : Job} {e : Err} {n : Nat} (he : e ≠ SUCCESS) :
    (BufferedRead.callHandler readHandler w j e n).2 = .closed ∧ Ended w (BufferedRead.callHandler readHandler w j e n).1 := by
  unfold BufferedRead.callHandler
  dsimp only
  have : readHandler { w with job := none, callbackIsRunning := w.callbackIsRunning + 1, calls := w.calls ++ [⟨j, e, n, w.rb.unread, w.consumed, w.received, w.rb.fetch⟩] } = [.close] := by
    unfold readHandler
    dsimp only
    rw [List.getLast?_concat]
    simp [he]
  rw [this]
  simp only [List.foldl_cons, List.foldl_nil, BufferedRead.act, BufferedRead.close]
  rw [if_neg (show ¬ (w.callbackIsRunning + 1 = 0) by omega)]
  simp only [Nat.add_sub_cancel, if_true]
  exact ⟨trivial, ⟨_, rfl, he⟩, rfl, rfl, rfl, rfl, rfl, rfl⟩

/-- One round of `run_read` while the server reads. -/
theorem loop_reading {unit sz : Nat} {w w' : World} (hi : BufferedRead.Inv sz w) (hj : w.job = some (.atLeast unit)) (hsh : w.shallClose = false)
    (h : BufferedRead.step readHandler w (.loop SUCCESS) = some w') :
    (∃ c, w' = { w with job := none, calls := w.calls ++ [c] } ∧ c.err = SUCCESS ∧ c.view.take c.num = w.rb.unread.take unit ∧ unit ≤ w.rb.unread.length) ∨
    Ended w w' ∨
    (w'.calls = w.calls ∧ w'.waiting = true ∧ w'.job = w.job ∧ w'.closed = w.closed ∧ w'.shallClose = false ∧ w'.rb.unread = w.rb.unread ∧ w'.consumed = w.consumed ∧
      w'.misuse = w.misuse) := by
  unfold BufferedRead.step at h
  dsimp only at h
  by_cases hl : w.looping = true
  case neg => rw [if_neg hl] at h; cases h
  rw [if_pos hl] at h
  injection h with h
  subst h
  have hlen := BufferedRead.unread_length sz w.rb hi.core.rb
  unfold BufferedRead.loopIter
  rw [hj]
  dsimp only
  by_cases he : w.lastError ≠ SUCCESS
  · have hr : BufferedRead.runJob readHandler w (.atLeast unit) = BufferedRead.callHandler readHandler w (.atLeast unit) w.lastError 0 := by
      unfold BufferedRead.runJob; rw [if_pos he]
    obtain ⟨c1, c2⟩ := call_error (w := w) (j := .atLeast unit) (n := 0) he
    rw [hr]
    generalize BufferedRead.callHandler readHandler w (.atLeast unit) w.lastError 0 = z at c1 c2
    obtain ⟨z1, z2⟩ := z
    dsimp only at c1 c2
    subst c1
    exact Or.inr (Or.inl ⟨c2.calls, c2.closed, c2.job, c2.rb, c2.consumed, c2.waiting, c2.misuse⟩)
  · by_cases ha : unit ≤ w.rb.unreadBytes
    · have hr : BufferedRead.runJob readHandler w (.atLeast unit) = BufferedRead.callHandler readHandler w (.atLeast unit) SUCCESS unit := by
        unfold BufferedRead.runJob; rw [if_neg he]; dsimp only; rw [if_pos ha]
      rw [hr, call_success hsh]
      exact Or.inl ⟨_, rfl, rfl, rfl, by rw [hlen]; exact ha⟩
    · have hr : BufferedRead.runJob readHandler w (.atLeast unit) = (w, .again) := by
        unfold BufferedRead.runJob; rw [if_neg he]; dsimp only; rw [if_neg ha]
      rw [hr]
      dsimp only
      have rs : ∀ v : World, BufferedRead.readSome readHandler v (.atLeast unit) SUCCESS = { v with waiting := true } := fun v => by
        unfold BufferedRead.readSome; rw [if_neg (by simp)]
      unfold BufferedRead.fillBuffer
      by_cases h1 : w.rb.spaceAvailable = 0
      · rw [if_pos h1]
        by_cases h2 : w.rb.fetch = 0
        · rw [if_pos h2]
          have hr2 : BufferedRead.runJob readHandler { w with lastError := MESSAGE_TOO_LONG } (.atLeast unit) =
              BufferedRead.callHandler readHandler { w with lastError := MESSAGE_TOO_LONG } (.atLeast unit) MESSAGE_TOO_LONG 0 := by
            unfold BufferedRead.runJob; rw [if_pos (by show MESSAGE_TOO_LONG ≠ SUCCESS; decide)]
          rw [hr2]
          obtain ⟨-, c2⟩ := call_error (w := { w with lastError := MESSAGE_TOO_LONG }) (j := .atLeast unit) (e := MESSAGE_TOO_LONG) (n := 0) (by decide)
          exact Or.inr (Or.inl ⟨c2.calls, c2.closed, c2.job, c2.rb, c2.consumed, c2.waiting, c2.misuse⟩)
        · rw [if_neg h2, rs]
          exact Or.inr (Or.inr ⟨rfl, rfl, hj.symm ▸ rfl, rfl, hsh, (BufferedRead.compact_ok sz w.rb hi.core.rb).2, rfl, rfl⟩)
      · rw [if_neg h1, rs]
        exact Or.inr (Or.inr ⟨rfl, rfl, hj.symm ▸ rfl, rfl, hsh, rfl, rfl, rfl⟩)

/-- One round of `run_read` otherwise. -/
theorem loop_idle {w w' : World} (hj : w.job = none) (h : BufferedRead.step readHandler w (.loop SUCCESS) = some w') : w' = { w with looping := false } := by
  unfold BufferedRead.step at h
  dsimp only at h
  split at h
  · injection h with h; subst h
    unfold BufferedRead.loopIter
    rw [hj]
  · cases h

/-! ### Invariant -/

/-- What has been written so far: `good` are the echoes, which make up what was consumed; the last write may not have been consumed yet, or it failed. -/
def Hist (unit : Nat) (p : Phase) (s : Sys) : Prop :=
  ∃ good rest, s.done = good ++ rest ∧ (∀ x ∈ good, ToldSuccess x) ∧ good.flatMap Write.asked = s.br.consumed ∧
    match p with
    | .toConsume => ∃ x, rest = [x] ∧ ToldSuccess x ∧ x.chain = [⟨elem, s.br.rb.unread.take unit⟩]
    | .stopped => (rest = [] ∧ s.br.closed = true) ∨ ∃ x, rest = [x] ∧ x.chain = [⟨elem, s.br.rb.unread.take unit⟩] ∧ ¬ ToldSuccess x ∧ s.br.closed = false
    | _ => rest = []

structure Inv (unit : Nat) (p : Phase) (s : Sys) : Prop where
  misuse : s.br.misuse = false
  shall : s.br.closed = false → s.br.shallClose = false
  closed : s.br.closed = true → p = .stopped
  cur : s.cur.isSome = true ↔ p = .writing
  job : s.br.job = if p = .reading then some (.atLeast unit) else none
  wait : s.br.waiting = true → p = .reading
  toWrite : ∀ d, p = .toWrite d → d = s.br.rb.unread.take unit ∧ unit ≤ s.br.rb.unread.length
  writing : p = .writing → unit ≤ s.br.rb.unread.length ∧ ∀ x, s.cur = some x → x.chain = [⟨elem, s.br.rb.unread.take unit⟩]
  toConsume : p = .toConsume → unit ≤ s.br.rb.unread.length
  hist : Hist unit p s
  units : unit ∣ s.br.consumed.length
  errs : ∀ x ∈ s.br.calls, x.err ≠ SUCCESS → s.br.closed = true

theorem init_inv (unit : Nat) (c : Bool) (mem : List UInt8) : Inv unit .start (StreamSocket.initial c mem) := by
  refine { misuse := rfl, shall := fun _ => rfl, closed := (fun q => by cases q), cur := ⟨(fun q => by cases q), (fun q => by cases q)⟩, job := rfl, wait := (fun q => by cases q), toWrite := (fun d q => by cases q), writing := (fun q => by cases q), toConsume := (fun q => by cases q), hist := ⟨[], [], rfl, (fun x hx => by cases hx), rfl, rfl⟩, units := ⟨0, rfl⟩, errs := (fun x hx => by cases hx) }

/-- Nothing but the socket changes. -/
theorem Inv.sockOnly {unit : Nat} {p : Phase} {s : Sys} (h : Inv unit p s) (k : Socket.St) : Inv unit p { s with sock := k } :=
  { misuse := h.misuse, shall := h.shall, closed := h.closed, cur := h.cur, job := h.job, wait := h.wait, toWrite := h.toWrite, writing := h.writing, toConsume := h.toConsume, hist := h.hist, units := h.units, errs := h.errs }

/-- The same application, another system that agrees on what matters. -/
theorem Inv.same {unit : Nat} {p : Phase} {s t : Sys} (h : Inv unit p s) (e1 : t.br.misuse = s.br.misuse) (e2 : t.br.closed = s.br.closed) (e3 : t.br.shallClose = s.br.shallClose)
    (e4 : t.cur = s.cur) (e5 : t.br.job = s.br.job) (e6 : t.br.waiting = true → p = .reading) (e7 : t.br.rb.unread = s.br.rb.unread ∨ p = .reading) (e8 : t.done = s.done)
    (e9 : t.br.consumed = s.br.consumed) (e10 : t.br.calls = s.br.calls) : Inv unit p t := by
  refine { misuse := by rw [e1]; exact h.misuse, shall := by rw [e2, e3]; exact h.shall, closed := by rw [e2]; exact h.closed, cur := by rw [e4]; exact h.cur, job := by rw [e5]; exact h.job, wait := e6, toWrite := ?_, writing := ?_, toConsume := ?_, hist := ?_, units := by rw [e9]; exact h.units, errs := by rw [e10, e2]; exact h.errs }
  · intro d hd
    rcases e7 with e7 | e7
    · rw [e7]; exact h.toWrite d hd
    · rw [hd] at e7; cases e7
  · intro hp
    rcases e7 with e7 | e7
    · rw [e7, e4]; exact h.writing hp
    · rw [hp] at e7; cases e7
  · intro hp
    rcases e7 with e7 | e7
    · rw [e7]; exact h.toConsume hp
    · rw [hp] at e7; cases e7
  · obtain ⟨good, rest, g1, g2, g3, g4⟩ := h.hist
    refine ⟨good, rest, by rw [e8]; exact g1, g2, by rw [e9]; exact g3, ?_⟩
    rcases e7 with e7 | e7
    · rw [e7, e2]; exact g4
    · subst e7; exact g4

theorem follow_eq {s s' : Sys} {br : World} {os : StreamSocket.Os} (h : follow s br os = some s') : s'.br = br ∧ s'.cur = s.cur ∧ s'.done = s.done ∧ s'.asked = s.asked := by
  unfold follow at h
  cases h1 : StreamSocket.asks s br with
  | none => rw [h1] at h; cases h
  | some k =>
    rw [h1, Option.bind_some] at h
    cases h2 : StreamSocket.closes s br os k with
    | none => rw [h2] at h; cases h
    | some k' =>
      rw [h2] at h
      injection h with h; subst h
      exact ⟨rfl, rfl, rfl, rfl⟩

/-- A write was answered. -/
theorem settle_eq {s s' : Sys} {x : Write} {r : BufferedWrite.Resp} (h : settle s x r = some s') :
    s'.br = s.br ∧ ∃ y : Write, y.chain = x.chain ∧ ((s'.cur = none ∧ s'.done = s.done ++ [y]) ∨ (s'.cur = some y ∧ s'.done = s.done)) := by
  unfold settle at h
  cases hr : BufferedWrite.respond x.world r with
  | none => rw [hr] at h; cases h
  | some w =>
    rw [hr] at h
    injection h with h
    dsimp only at h
    split at h
    · subst h; exact ⟨rfl, { x with answers := x.answers ++ [r], world := w }, rfl, Or.inl ⟨rfl, rfl⟩⟩
    · subst h; exact ⟨rfl, { x with answers := x.answers ++ [r], world := w }, rfl, Or.inr ⟨rfl, rfl⟩⟩

/-- What a `write_some`, or a socket that becomes writable, does to the server. -/
theorem write_goes_on {unit : Nat} {p p' : Phase} {s s' : Sys} {x : Write} (h : Inv unit p s) (hx : s.cur = some x) (hbr : s'.br = s.br)
    (hy : ∃ y : Write, y.chain = x.chain ∧ ((s'.cur = none ∧ s'.done = s.done ++ [y]) ∨ (s'.cur = some y ∧ s'.done = s.done)))
    (hp : (if s'.done.length = s.done.length then some p else match s'.done.getLast? with | some x => some (afterWrite x) | none => none) = some p') : Inv unit p' s' := by
  have hpw : p = .writing := h.cur.1 (by rw [hx]; rfl)
  obtain ⟨w1, w2⟩ := h.writing hpw
  obtain ⟨y, hy1, hy2⟩ := hy
  have hych : y.chain = [⟨elem, s.br.rb.unread.take unit⟩] := by rw [hy1]; exact w2 x hx
  have hcl : s.br.closed = false := by
    cases hc : s.br.closed with
    | false => rfl
    | true => have := h.closed hc; rw [hpw] at this; cases this
  have hwt : s.br.waiting = false := by
    cases hw : s.br.waiting with
    | false => rfl
    | true => have := h.wait hw; rw [hpw] at this; cases this
  have hjob : s.br.job = none := by have := h.job; rw [hpw] at this; exact this
  obtain ⟨good, rest, g1, g2, g3, g4⟩ := h.hist
  rw [hpw] at g4
  have g4 : rest = [] := g4
  subst g4
  rcases hy2 with ⟨c1, c2⟩ | ⟨c1, c2⟩
  · rw [if_neg (by rw [c2]; simp), c2, List.getLast?_concat] at hp
    injection hp with hp
    unfold afterWrite at hp
    by_cases hsucc : ToldSuccess y
    · obtain ⟨ch, hch⟩ := hsucc
      rw [hch] at hp
      have hp : Phase.toConsume = p' := by simpa using hp
      subst hp
      refine { misuse := by rw [hbr]; exact h.misuse, shall := by rw [hbr]; exact h.shall, closed := by rw [hbr, hcl]; (intro q; cases q), cur := by rw [c1]; exact ⟨(fun q => by cases q), (fun q => by cases q)⟩, job := by rw [hbr]; exact hjob, wait := by rw [hbr, hwt]; (intro q; cases q), toWrite := (fun d q => by cases q), writing := (fun q => by cases q), toConsume := fun _ => by rw [hbr]; exact w1, hist := ?_, units := by rw [hbr]; exact h.units, errs := by rw [hbr]; exact h.errs }
      exact ⟨good, [y], by rw [c2, g1, List.append_nil], g2, by rw [hbr]; exact g3, y, rfl, ⟨ch, hch⟩, by rw [hbr]; exact hych⟩
    · have hp : Phase.stopped = p' := by
        cases hl : y.world.calls.getLast? with
        | none => rw [hl] at hp; exact hp
        | some z =>
          obtain ⟨e, ch⟩ := z
          rw [hl] at hp
          dsimp only at hp
          by_cases he : e = SUCCESS
          · subst he; exact absurd ⟨ch, hl⟩ hsucc
          · rw [if_neg he] at hp; exact hp
      subst hp
      refine { misuse := by rw [hbr]; exact h.misuse, shall := by rw [hbr]; exact h.shall, closed := fun _ => rfl, cur := by rw [c1]; exact ⟨(fun q => by cases q), (fun q => by cases q)⟩, job := by rw [hbr]; exact hjob, wait := by rw [hbr, hwt]; (intro q; cases q), toWrite := (fun d q => by cases q), writing := (fun q => by cases q), toConsume := (fun q => by cases q), hist := ?_, units := by rw [hbr]; exact h.units, errs := by rw [hbr]; exact h.errs }
      exact ⟨good, [y], by rw [c2, g1, List.append_nil], g2, by rw [hbr]; exact g3, Or.inr ⟨y, rfl, by rw [hbr]; exact hych, hsucc, by rw [hbr]; exact hcl⟩⟩
  · rw [if_pos (by rw [c2])] at hp
    injection hp with hp
    subst hp
    refine { misuse := by rw [hbr]; exact h.misuse, shall := by rw [hbr]; exact h.shall, closed := by rw [hbr, hcl]; (intro q; cases q), cur := by rw [c1]; exact ⟨fun _ => hpw, fun _ => rfl⟩, job := by rw [hbr]; exact h.job, wait := by rw [hbr, hwt]; (intro q; cases q), toWrite := (fun d q => by rw [hpw] at q; cases q), writing := fun _ => ⟨by rw [hbr]; exact w1, fun z hz => ?_⟩, toConsume := (fun q => by rw [hpw] at q; cases q), hist := ?_, units := by rw [hbr]; exact h.units, errs := by rw [hbr]; exact h.errs }
    · rw [c1] at hz; injection hz with hz; subst hz; rw [hbr]; exact hych
    · subst hpw; exact ⟨good, [], by rw [c2]; exact g1, g2, by rw [hbr]; exact g3, rfl⟩

/-- `server_handle_read` has been called. -/
theorem ended_inv {unit : Nat} {s s' : Sys} (h : Inv unit .reading s) (hw : s.br.waiting = false) (he : Ended s.br s'.br) (hc : s'.cur = s.cur) (hd : s'.done = s.done) : Inv unit .stopped s' := by
  have hcur : s.cur = none := by
    cases hx : s.cur with
    | none => rfl
    | some x => have := h.cur.1 (by rw [hx]; rfl); cases this
  obtain ⟨good, rest, g1, g2, g3, g4⟩ := h.hist
  have g4 : rest = [] := g4
  refine { misuse := by rw [he.misuse]; exact h.misuse, shall := (fun q => by rw [he.closed] at q; cases q), closed := fun _ => rfl, cur := by rw [hc, hcur]; exact ⟨(fun q => by cases q), (fun q => by cases q)⟩, job := by rw [he.job]; rfl, wait := by rw [he.waiting, hw]; (intro q; cases q), toWrite := (fun d q => by cases q), writing := (fun q => by cases q), toConsume := (fun q => by cases q), hist := ⟨good, rest, by rw [hd]; exact g1, g2, by rw [he.consumed]; exact g3, Or.inl ⟨g4, he.closed⟩⟩, units := by rw [he.consumed]; exact h.units, errs := fun _ _ _ => he.closed }

theorem toWrite_inv {unit : Nat} {s s' : Sys} (h : Inv unit .reading s) (hw : s.br.waiting = false) {c : Call} (hb : s'.br = { s.br with job := none, calls := s.br.calls ++ [c] }) (hok : c.err = SUCCESS)
    (hn : unit ≤ s.br.rb.unread.length) (hc : s'.cur = s.cur) (hd : s'.done = s.done) : Inv unit (.toWrite (s.br.rb.unread.take unit)) s' := by
  have hcur : s.cur = none := by
    cases hx : s.cur with
    | none => rfl
    | some x => have := h.cur.1 (by rw [hx]; rfl); cases this
  obtain ⟨good, rest, g1, g2, g3, g4⟩ := h.hist
  have g4 : rest = [] := g4
  refine { misuse := by rw [hb]; exact h.misuse, shall := by rw [hb]; exact h.shall, closed := by rw [hb]; (intro q; have := h.closed q; cases this), cur := by rw [hc, hcur]; exact ⟨(fun q => by cases q), (fun q => by cases q)⟩, job := by rw [hb]; rfl, wait := by rw [hb]; (intro q; have q : s.br.waiting = true := q; rw [hw] at q; cases q), toWrite := ?_, writing := (fun q => by cases q), toConsume := (fun q => by cases q), hist := ⟨good, rest, by rw [hd]; exact g1, g2, by rw [hb]; exact g3, g4⟩, units := by rw [hb]; exact h.units, errs := ?_ }
  case refine_2 =>
    rw [hb]
    intro x hx he
    rcases List.mem_append.1 hx with hx | hx
    · exact h.errs x hx he
    · rw [List.mem_singleton] at hx; subst hx; exact absurd hok he
  intro d hd
  injection hd with hd
  rw [hb]
  exact ⟨hd.symm, hn⟩

theorem read_inv {unit sz : Nat} {p : Phase} {s s' : Sys} {w : World} (h : Inv unit p s) (hi : BufferedRead.Inv sz s.br) (hu : unit ≤ sz) (hp : p = .start ∨ p = .toRead)
    (hst : BufferedRead.step readHandler s.br (.user (.read (.atLeast unit))) = some w) (hb : s'.br = w) (hc : s'.cur = s.cur) (hd : s'.done = s.done) : Inv unit .reading s' := by
  have hcur : s.cur = none := by
    cases hx : s.cur with
    | none => rfl
    | some x => have := h.cur.1 (by rw [hx]; rfl); rcases hp with hp | hp <;> rw [hp] at this <;> cases this
  have hw : s.br.waiting = false := by
    cases hw : s.br.waiting with
    | false => rfl
    | true => have := h.wait hw; rcases hp with hp | hp <;> rw [hp] at this <;> cases this
  obtain ⟨good, rest, g1, g2, g3, g4⟩ := h.hist
  have g4 : rest = [] := by rcases hp with hp | hp <;> subst hp <;> exact g4
  unfold BufferedRead.step at hst
  dsimp only at hst
  by_cases hg : (s.br.looping || s.br.closed) = true
  · rw [if_pos hg] at hst; cases hst
  rw [if_neg hg] at hst
  have hcl : s.br.closed = false := by
    cases hx : s.br.closed with
    | false => rfl
    | true => rw [hx, Bool.or_true] at hg; exact absurd rfl hg
  injection hst with hst
  have hsz : ¬ unit > s.br.rb.size := by
    have := hi.core.rb.1
    show ¬ unit > s.br.rb.mem.length
    omega
  unfold BufferedRead.act BufferedRead.read at hst
  dsimp only at hst
  rw [if_neg hsz] at hst
  unfold BufferedRead.read.go at hst
  subst hst
  refine { misuse := by rw [hb]; show (s.br.misuse || s.br.waiting) = false; rw [h.misuse, hw]; rfl, shall := by rw [hb]; exact h.shall, closed := by rw [hb]; (intro q; have q : s.br.closed = true := q; rw [hcl] at q; cases q), cur := by rw [hc, hcur]; exact ⟨(fun q => by cases q), (fun q => by cases q)⟩, job := by rw [hb]; rfl, wait := fun _ => rfl, toWrite := (fun d q => by cases q), writing := (fun q => by cases q), toConsume := (fun q => by cases q), hist := ⟨good, rest, by rw [hd]; exact g1, g2, by rw [hb]; exact g3, g4⟩, units := by rw [hb]; exact h.units, errs := by rw [hb]; exact h.errs }

theorem consume_inv {unit sz : Nat} {s s' : Sys} {w : World} (h : Inv unit .toConsume s) (hi : BufferedRead.Inv sz s.br)
    (hst : BufferedRead.step readHandler s.br (.user (.consume unit)) = some w) (hb : s'.br = w) (hc : s'.cur = s.cur) (hd : s'.done = s.done) : Inv unit .toRead s' := by
  have hlen := BufferedRead.unread_length sz s.br.rb hi.core.rb
  have hun := h.toConsume rfl
  have hcur : s.cur = none := by
    cases hx : s.cur with
    | none => rfl
    | some x => have := h.cur.1 (by rw [hx]; rfl); cases this
  have hcl : s.br.closed = false := by
    cases hx : s.br.closed with
    | false => rfl
    | true => have := h.closed hx; cases this
  obtain ⟨good, rest, g1, g2, g3, x, g4, g5, g6⟩ := h.hist
  unfold BufferedRead.step at hst
  dsimp only at hst
  by_cases hg : (s.br.looping || s.br.closed) = true
  · rw [if_pos hg] at hst; cases hst
  rw [if_neg hg] at hst
  injection hst with hst
  unfold BufferedRead.act at hst
  dsimp only at hst
  subst hst
  have hj := h.job
  refine { misuse := ?_, shall := by rw [hb]; exact h.shall, closed := by rw [hb]; (intro q; have q : s.br.closed = true := q; rw [hcl] at q; cases q), cur := by rw [hc, hcur]; exact ⟨(fun q => by cases q), (fun q => by cases q)⟩, job := by rw [hb]; exact hj, wait := by rw [hb]; (intro q; have := h.wait q; cases this), toWrite := (fun d q => by cases q), writing := (fun q => by cases q), toConsume := (fun q => by cases q), hist := ?_, units := ?_, errs := by rw [hb]; exact h.errs }
  · rw [hb]
    show (s.br.misuse || decide (s.br.rb.unreadBytes < unit)) = false
    rw [h.misuse, decide_eq_false (by omega)]; rfl
  · refine ⟨good ++ [x], [], by rw [hd, g1, g4, List.append_nil], ?_, ?_, rfl⟩
    · intro y hy
      rcases List.mem_append.1 hy with hy | hy
      · exact g2 y hy
      · rw [List.mem_singleton] at hy; subst hy; exact g5
    · rw [hb]
      show _ = s.br.consumed ++ s.br.rb.unread.take unit
      rw [List.flatMap_append, g3]
      congr 1
      unfold StreamSocket.Write.asked
      simp [g6, flat]
  · rw [hb]
    show unit ∣ (s.br.consumed ++ s.br.rb.unread.take unit).length
    rw [List.length_append, List.length_take, Nat.min_eq_left hun]
    exact Nat.dvd_add h.units (Nat.dvd_refl unit)

/-- The transport has completed a read. -/
theorem arrived_inv {unit : Nat} {p : Phase} {s s' : Sys} {w : World} {e : BufferedRead.Ev} (h : Inv unit p s) (he : (∃ d, e = .deliver d) ∨ ∃ r, e = .fail r)
    (hst : BufferedRead.step readHandler s.br e = some w) (hb : s'.br = w) (hc : s'.cur = s.cur) (hd : s'.done = s.done) : Inv unit p s' := by
  have key : s.br.waiting = true ∧ w.misuse = s.br.misuse ∧ w.closed = s.br.closed ∧ w.shallClose = s.br.shallClose ∧ w.job = s.br.job ∧ w.waiting = false ∧ w.consumed = s.br.consumed ∧ w.calls = s.br.calls := by
    rcases he with ⟨d, he⟩ | ⟨r, he⟩ <;> subst he <;> unfold BufferedRead.step at hst <;> dsimp only at hst
    · by_cases hg : (s.br.waiting && !s.br.looping && !s.br.closed && decide (d.length ≤ s.br.rb.spaceAvailable)) = true
      · rw [if_pos hg] at hst
        injection hst with hst; subst hst
        simp only [Bool.and_eq_true] at hg
        exact ⟨hg.1.1.1, rfl, rfl, rfl, rfl, rfl, rfl, rfl⟩
      · rw [if_neg hg] at hst; cases hst
    · by_cases hg : (s.br.waiting && !s.br.looping && !s.br.closed && decide (r ≠ SUCCESS)) = true
      · rw [if_pos hg] at hst
        injection hst with hst; subst hst
        simp only [Bool.and_eq_true] at hg
        exact ⟨hg.1.1.1, rfl, rfl, rfl, rfl, rfl, rfl, rfl⟩
      · rw [if_neg hg] at hst; cases hst
  obtain ⟨k0, k1, k2, k3, k4, k5, k6, k7⟩ := key
  subst hb
  exact h.same k1 k2 k3 hc k4 (fun q => by rw [k5] at q; cases q) (Or.inr (h.wait k0)) hd k6 k7

theorem step_inv {quiet c : Bool} {mem : List UInt8} {unit : Nat} (hu : unit ≤ mem.length) {p p' : Phase} {s s' : Sys} {e : Ev} (i : StreamSocket.Inv quiet readHandler c mem s) (h : Inv unit p s)
    (hs : step readHandler s e = some s') (hp : next unit p s s' e = some p') : Inv unit p' s' := by
  have sock : ∀ {m : Socket.Move}, (Socket.step s.sock m).map (fun k => { s with sock := k }) = some s' → Inv unit p s' := fun {m} hm => by
    cases hk : Socket.step s.sock m with
    | none => rw [hk] at hm; cases hm
    | some k => rw [hk] at hm; injection hm with hm; subst hm; exact h.sockOnly k
  cases e with
  | peerSends d => injection hp with hp; subst hp; exact sock hs
  | peerCloses => injection hp with hp; subst hp; exact sock hs
  | timeout => injection hp with hp; subst hp; exact sock hs
  | enter =>
    unfold next at hp
    dsimp only at hp
    split at hp
    · injection hp with hp; subst hp; exact sock hs
    · cases hp
  | leave =>
    unfold next at hp
    dsimp only at hp
    unfold step at hs
    dsimp only at hs
    split at hs
    · cases hs
    split at hp
    · injection hp with hp; subst hp; exact sock hs
    · cases hp
  | user a os =>
    unfold step at hs
    dsimp only at hs
    split at hs
    · cases hs
    cases hb : BufferedRead.step readHandler s.br (.user a) with
    | none => rw [hb] at hs; cases hs
    | some w =>
      rw [hb, Option.bind_some] at hs
      obtain ⟨f1, f2, f3, -⟩ := follow_eq hs
      unfold next at hp
      dsimp only at hp
      split at hp
      · split at hp
        · next hn => injection hp with hp; subst hp; subst hn; exact read_inv h i.br hu (Or.inl rfl) hb f1 f2 f3
        · cases hp
      · split at hp
        · next hn => injection hp with hp; subst hp; subst hn; exact consume_inv h i.br hb f1 f2 f3
        · cases hp
      · split at hp
        · next hn => injection hp with hp; subst hp; subst hn; exact read_inv h i.br hu (Or.inr rfl) hb f1 f2 f3
        · cases hp
      · cases hp
  | loop os =>
    unfold step at hs
    dsimp only at hs
    split at hs
    · cases hs
    cases hb : BufferedRead.step readHandler s.br (.loop SUCCESS) with
    | none => rw [hb] at hs; cases hs
    | some w =>
      rw [hb, Option.bind_some] at hs
      obtain ⟨f1, f2, f3, -⟩ := follow_eq hs
      have hl : s.br.looping = true := by
        unfold BufferedRead.step at hb
        dsimp only at hb
        split at hb
        · assumption
        · cases hb
      have hw : s.br.waiting = false := by
        cases hw : s.br.waiting with
        | false => rfl
        | true => have := (i.br.wait hw).1; rw [hl] at this; cases this
      have hcl := i.loopOpen hl
      unfold next at hp
      dsimp only at hp
      by_cases hpr : p = .reading
      · subst hpr
        have hj : s.br.job = some (.atLeast unit) := h.job
        rcases loop_reading i.br hj (h.shall hcl) hb with ⟨cl, l1, l2, l3, l4⟩ | l | ⟨l1, l2, l3, l4, l5, l6, l7, l8⟩
        · rw [f1, l1] at hp
          dsimp only at hp
          rw [if_neg (by simp), List.getLast?_concat] at hp
          dsimp only at hp
          rw [if_pos l2, l3] at hp
          injection hp with hp
          subst hp
          exact toWrite_inv h hw (f1.trans l1) l2 l4 f2 f3
        · obtain ⟨cl, c1, c2⟩ := l.calls
          rw [f1, c1, if_neg (by simp), List.getLast?_concat] at hp
          dsimp only at hp
          rw [if_neg c2] at hp
          injection hp with hp
          subst hp
          exact ended_inv h hw (by rw [f1]; exact l) f2 f3
        · rw [f1, l1, if_pos rfl] at hp
          injection hp with hp
          subst hp
          exact h.same (by rw [f1, l8]) (by rw [f1, l4]) (by rw [f1, l5]; exact (h.shall hcl).symm) f2 (by rw [f1, l3]) (fun _ => rfl) (Or.inr rfl) f3 (by rw [f1, l7]) (by rw [f1, l1])
      · have hj : s.br.job = none := by rw [h.job, if_neg hpr]
        have hw' := loop_idle hj hb
        rw [f1, hw'] at hp
        dsimp only at hp
        rw [if_pos rfl] at hp
        injection hp with hp
        subst hp
        exact h.same (by rw [f1, hw']) (by rw [f1, hw']) (by rw [f1, hw']) f2 (by rw [f1, hw']) (by rw [f1, hw']; exact h.wait) (Or.inl (by rw [f1, hw'])) f3 (by rw [f1, hw']) (by rw [f1, hw'])
  | readable r =>
    injection hp with hp
    subst hp
    unfold step at hs
    dsimp only at hs
    cases hk : Socket.step s.sock (.readable true r) with
    | none => rw [hk] at hs; cases hs
    | some k =>
      rw [hk, Option.bind_some] at hs
      split at hs
      · next t er d _ =>
        cases hb : BufferedRead.step readHandler s.br (if er = SUCCESS then .deliver d else .fail er) with
        | none => rw [hb] at hs; cases hs
        | some w =>
          rw [hb] at hs
          injection hs with hs
          subst hs
          refine arrived_inv h ?_ hb rfl rfl rfl
          split
          · exact Or.inl ⟨_, rfl⟩
          · exact Or.inr ⟨_, rfl⟩
      · injection hs with hs; subst hs; exact h.sockOnly k
  | write chain =>
    unfold step at hs
    dsimp only at hs
    split at hs
    · cases hs
    injection hs with hs
    subst hs
    unfold next at hp
    dsimp only at hp
    split at hp
    · next d =>
      split at hp
      · next hc =>
        injection hp with hp
        subst hp
        obtain ⟨t1, t2⟩ := h.toWrite d rfl
        obtain ⟨good, rest, g1, g2, g3, g4⟩ := h.hist
        exact { misuse := h.misuse, shall := h.shall, closed := (fun q => by have := h.closed q; cases this), cur := ⟨fun _ => rfl, fun _ => rfl⟩, job := h.job, wait := (fun q => by have := h.wait q; cases this), toWrite := (fun d q => by cases q), writing := fun _ => ⟨t2, fun x hx => by (injection hx with hx; subst hx; show chain = _; rw [hc, t1])⟩, toConsume := (fun q => by cases q), hist := ⟨good, rest, g1, g2, g3, g4⟩, units := h.units, errs := h.errs }
      · cases hp
    · cases hp
  | send r =>
    unfold step at hs
    dsimp only at hs
    split at hs
    · cases hs
    · next x hx =>
      split at hs
      · cases hs
      · cases hk : Socket.step s.sock (.write x.data r true) with
        | none => rw [hk] at hs; cases hs
        | some k =>
          rw [hk, Option.bind_some] at hs
          split at hs
          · obtain ⟨b1, b2⟩ := settle_eq hs
            exact write_goes_on h hx b1 b2 hp
          · injection hs with hs
            subst hs
            unfold next at hp
            dsimp only at hp
            rw [if_pos rfl] at hp
            injection hp with hp
            subst hp
            exact h.same rfl rfl rfl rfl rfl h.wait (Or.inl rfl) rfl rfl rfl
          · obtain ⟨b1, b2⟩ := settle_eq hs
            exact write_goes_on h hx b1 b2 hp
          · cases hs
  | writable er =>
    unfold step at hs
    dsimp only at hs
    cases hk : Socket.step s.sock (.writable er) with
    | none => rw [hk] at hs; cases hs
    | some k =>
      rw [hk, Option.bind_some] at hs
      split at hs
      · next x _ _ _ hx _ =>
        obtain ⟨b1, b2⟩ := settle_eq hs
        exact write_goes_on h hx b1 b2 hp
      · cases hs

/-! ### What follows -/

section
variable {quiet c : Bool} {mem : List UInt8} {unit : Nat} {p : Phase} {s : Sys}

theorem reach_both (hmem : mem ≠ []) (hu : unit ≤ mem.length) (h : Reach unit quiet c mem p s) : StreamSocket.Reach quiet readHandler c mem s ∧ Inv unit p s := by
  induction h with
  | init => exact ⟨.init, init_inv unit c mem⟩
  | @step p p' s s' e h ha hs hp ih =>
    have i := step_inv hu (StreamSocket.reach_inv hmem ih.1) ih.2 hs hp
    refine ⟨.step ih.1 ha hs i.misuse fun g _ => Or.inl ?_, i⟩
    have := i.closed g
    cases hx : s'.cur with
    | none => rfl
    | some x => have := i.cur.1 (by rw [hx]; rfl); rw [i.closed g] at this; cases this

/-- C98: the server is a proper user of the stream and of the socket (so that C65 applies to it): it consumes what it was given and no more, has one read or one write under way and never
closes the stream while it writes. -/
theorem proper_user (hmem : mem ≠ []) (hu : unit ≤ mem.length) (h : Reach unit quiet c mem p s) : StreamSocket.Reach quiet readHandler c mem s := (reach_both hmem hu h).1

/-- C98: what the client gets back is the beginning of what it sent, in units: all units consumed by the server, and a part of the next one.
Missing: sends that end within a unit, or that find the socket's buffer full at once (`FirstEndsEarly`); the claim is false then (`bytes_echoed_twice`). -/
theorem echoes_partial (hmem : mem ≠ []) (hu : unit ≤ mem.length) (h : Reach unit quiet c mem p s) (hf : ∀ x ∈ s.writes, FirstEndsEarly x.chain x.answers) :
    s.sock.outgoing <+: Socket.sent s.sock.log ∧ unit ∣ s.br.consumed.length ∧ ∃ part, s.sock.outgoing = s.br.consumed ++ part ∧ part.length ≤ unit := by
  obtain ⟨hr, i⟩ := reach_both hmem hu h
  obtain ⟨w1, w2, w3, w4⟩ := StreamSocket.writes_reach_peer_partial hmem hr hf
  obtain ⟨r1, -, -⟩ := StreamSocket.reads_what_peer_sent hmem hr
  obtain ⟨good, rest, g1, g2, g3, g4⟩ := i.hist
  have hgood : ∀ l : List Write, (∀ x ∈ l, x ∈ s.done ∧ ToldSuccess x) → l.flatMap (fun x => x.world.wire) = l.flatMap StreamSocket.Write.asked := by
    intro l hl
    induction l with
    | nil => rfl
    | cons x l ih =>
      rw [List.flatMap_cons, List.flatMap_cons, ih fun y hy => hl y (List.mem_cons_of_mem _ hy)]
      congr 1
      obtain ⟨h1, ch, h2⟩ := hl x List.mem_cons_self
      have h2 := List.mem_of_getLast? h2
      rcases (w2 x (List.mem_append_left _ h1)).2.2 (w3 x h1) with ⟨e, c', e1, -, e3⟩ | ⟨e1, -⟩
      · rw [e1, List.mem_singleton] at h2
        injection h2 with h2
        exact e3 h2.symm
      · rw [e1] at h2; cases h2
  have hg := hgood good fun x hx => ⟨by rw [g1]; exact List.mem_append_left _ hx, g2 x hx⟩
  have one : ∀ x ∈ s.writes, x.chain = [⟨elem, s.br.rb.unread.take unit⟩] → x.world.wire <+: s.br.rb.unread.take unit := fun x hx hch => by
    have := (w2 x hx).1
    rw [hch] at this
    simpa [flat] using this
  have hrest : ∃ part, (rest ++ s.cur.toList).flatMap (fun x => x.world.wire) = part ∧ part <+: s.br.rb.unread.take unit := by
    refine ⟨_, rfl, ?_⟩
    have none_cur : p ≠ .writing → s.cur = none := fun hp => by
      cases hx : s.cur with
      | none => rfl
      | some x => exact absurd (i.cur.1 (by rw [hx]; rfl)) hp
    have single : ∀ x, x ∈ s.writes → x.chain = [⟨elem, s.br.rb.unread.take unit⟩] → ([x].flatMap fun x => x.world.wire) <+: s.br.rb.unread.take unit := fun x hx hch => by
      have := one x hx hch
      simpa using this
    have inDone : ∀ x, x ∈ rest → x ∈ s.writes := fun x hx => List.mem_append_left _ (by rw [g1]; exact List.mem_append_right _ hx)
    cases p with
    | writing =>
      have g4 : rest = [] := g4
      obtain ⟨x, hx⟩ := Option.isSome_iff_exists.1 (i.cur.2 rfl)
      rw [g4, hx]
      exact single x (List.mem_append_right _ (by rw [hx]; exact List.mem_singleton_self x)) ((i.writing rfl).2 x hx)
    | toConsume =>
      obtain ⟨x, e1, -, e3⟩ := g4
      rw [none_cur (fun q => by cases q), e1]
      exact single x (inDone x (by rw [e1]; exact List.mem_singleton_self x)) e3
    | stopped =>
      rw [none_cur (fun q => by cases q)]
      rcases g4 with ⟨e1, -⟩ | ⟨x, e1, e3, -⟩
      · rw [e1]; exact List.nil_prefix
      · rw [e1]; exact single x (inDone x (by rw [e1]; exact List.mem_singleton_self x)) e3
    | start => rw [none_cur (fun q => by cases q), show rest = [] from g4]; exact List.nil_prefix
    | reading => rw [none_cur (fun q => by cases q), show rest = [] from g4]; exact List.nil_prefix
    | toWrite d => rw [none_cur (fun q => by cases q), show rest = [] from g4]; exact List.nil_prefix
    | toRead => rw [none_cur (fun q => by cases q), show rest = [] from g4]; exact List.nil_prefix
  obtain ⟨part, q1, q2⟩ := hrest
  have hout : s.sock.outgoing = s.br.consumed ++ part := by
    rw [w1]
    unfold StreamSocket.Sys.writes
    rw [g1, List.append_assoc, List.flatMap_append, hg, g3, q1]
  refine ⟨?_, i.units, part, hout, Nat.le_trans q2.length_le (by rw [List.length_take]; exact Nat.min_le_left _ _)⟩
  rw [hout]
  exact ((List.prefix_append_right_inj _).2 (q2.trans (List.take_prefix _ _))).trans r1

theorem quiet_on_error : BufferedRead.QuietOnError readHandler := by
  intro w c hc he a ha j
  unfold readHandler at ha
  rw [hc] at ha
  dsimp only at ha
  rw [if_neg he, List.mem_singleton] at ha
  subst ha
  intro q; cases q

/-- While the server has something left to do, it is running. -/
theorem in_user (hmem : mem ≠ []) (hu : unit ≤ mem.length) (h : Reach unit quiet c mem p s) (hp : p = .toConsume ∨ p = .toRead ∨ ∃ d, p = .toWrite d) : s.inUser = true := by
  induction h with
  | init => rcases hp with q | q | ⟨d, q⟩ <;> cases q
  | @step p p' s s' e h ha hs hn ih =>
    have hne : e ≠ .leave := by
      intro q
      subst q
      unfold next at hn
      dsimp only at hn
      split at hn
      · next g => injection hn with hn; subst hn; rcases hp with q | q | ⟨d, q⟩ <;> subst q <;> rcases g with g | g | g <;> cases g
      · cases hn
    refine StreamSocket.inUser_step hmem (reach_both hmem hu h).1 ha hs hne fun hact => ?_
    cases e with
    | user a os => cases hact
    | loop os => cases hact
    | send r => cases hact
    | writable er => cases hact
    | leave => exact absurd rfl hne
    | write chain =>
      unfold next at hn
      dsimp only at hn
      split at hn
      · next d => exact ih (Or.inr (Or.inr ⟨d, rfl⟩))
      · cases hn
    | enter =>
      unfold next at hn
      dsimp only at hn
      split at hn
      · injection hn with hn; subst hn; exact ih hp
      · cases hn
    | peerSends d => injection hn with hn; subst hn; exact ih hp
    | peerCloses => injection hn with hn; subst hn; exact ih hp
    | timeout => injection hn with hn; subst hn; exact ih hp
    | readable r => injection hn with hn; subst hn; exact ih hp

/-- C98: whenever control is back in the event loop, the server has not started yet, or it waits for the socket to become readable with an unfinished unit, or it waits for the socket to
become writable, or it has closed the stream, or a write has failed. -/
theorem at_rest (hmem : mem ≠ []) (hu : unit ≤ mem.length) (h : Reach unit quiet c mem p s) (hst : s.sock.stack = []) :
    p = .start ∨ (p = .reading ∧ s.br.waiting = true ∧ s.br.rb.unread.length < unit) ∨ (p = .writing ∧ s.asked = true) ∨
      (p = .stopped ∧ (s.br.closed = true ∨ ∃ x ∈ s.done, ¬ ToldSuccess x)) := by
  obtain ⟨hr, i⟩ := reach_both hmem hu h
  have hnu := StreamSocket.Sys.not_inUser hst
  have absurdUser : (p = .toConsume ∨ p = .toRead ∨ ∃ d, p = .toWrite d) → False := fun hp => by
    have := in_user hmem hu h hp
    rw [hnu] at this; cases this
  have hcl : p ≠ .stopped → s.br.closed = false := fun hp => by
    cases hx : s.br.closed with
    | false => rfl
    | true => exact absurd (i.closed hx) hp
  cases p with
  | start => exact Or.inl rfl
  | toConsume => exact (absurdUser (Or.inl rfl)).elim
  | toRead => exact (absurdUser (Or.inr (Or.inl rfl))).elim
  | toWrite d => exact (absurdUser (Or.inr (Or.inr ⟨d, rfl⟩))).elim
  | reading =>
    have hj : s.br.job = some (.atLeast unit) := i.job
    have hw := StreamSocket.pending_read_waits_partial quiet_on_error hmem hr (by rw [hj]; rfl) (hcl (fun q => by cases q)) hst
    obtain ⟨-, -, j, h3, h4⟩ := (StreamSocket.reach_inv hmem hr).br.wait hw
    rw [hj] at h3
    injection h3 with h3
    subst h3
    exact Or.inr (Or.inl ⟨rfl, hw, Nat.lt_of_not_le h4⟩)
  | writing => exact Or.inr (Or.inr (Or.inl ⟨rfl, (StreamSocket.pending_write_waits hmem hr (i.cur.2 rfl) (hcl (fun q => by cases q)) hst).1⟩))
  | stopped =>
    refine Or.inr (Or.inr (Or.inr ⟨rfl, ?_⟩))
    obtain ⟨good, rest, g1, -, -, g4⟩ := i.hist
    rcases g4 with ⟨-, e⟩ | ⟨x, e1, -, e3, -⟩
    · exact Or.inl e
    · exact Or.inr ⟨x, by rw [g1, e1]; exact List.mem_append_right _ (List.mem_singleton_self x), e3⟩

/-- C98: when the server waits for more and the operating system has handed over everything that arrived, all complete units the client sent have been echoed, byte by byte.
Missing: as in `echoes_partial`. -/
theorem echoes_all_partial (hmem : mem ≠ []) (hu : unit ≤ mem.length) (h : Reach unit quiet c mem p s) (hf : ∀ x ∈ s.writes, FirstEndsEarly x.chain x.answers)
    (hst : s.sock.stack = []) (hp : p = .reading) (hin : s.sock.incoming = []) :
    s.sock.outgoing = (Socket.sent s.sock.log).take (unit * ((Socket.sent s.sock.log).length / unit)) := by
  obtain ⟨hr, i⟩ := reach_both hmem hu h
  have hlt : s.br.rb.unread.length < unit := by
    rcases at_rest hmem hu h hst with q | ⟨-, -, q⟩ | ⟨q, -⟩ | ⟨q, -⟩
    · rw [hp] at q; cases q
    · exact q
    · rw [hp] at q; cases q
    · rw [hp] at q; cases q
  have hcl : s.br.closed = false := by
    cases hx : s.br.closed with
    | false => rfl
    | true => have := i.closed hx; rw [hp] at this; cases this
  obtain ⟨-, r2, -⟩ := StreamSocket.reads_what_peer_sent hmem hr
  have hsent := r2 hcl
  rw [hin, List.append_nil] at hsent
  have hcur : s.cur = none := by
    cases hx : s.cur with
    | none => rfl
    | some x => have := i.cur.1 (by rw [hx]; rfl); rw [hp] at this; cases this
  obtain ⟨good, rest, g1, g2, g3, g4⟩ := i.hist
  rw [hp] at g4
  have g4 : rest = [] := g4
  rw [g4, List.append_nil] at g1
  have hout := StreamSocket.all_writes_successful_partial hmem hr hf hcur (by rw [g1]; exact fun x hx => (g2 x hx).elim fun ch hch => ⟨ch, List.mem_of_getLast? hch⟩)
  rw [g1, g3] at hout
  obtain ⟨k, hk⟩ := i.units
  have hq : unit * ((Socket.sent s.sock.log).length / unit) = s.br.consumed.length := by
    rw [← hsent, List.length_append, hk, Nat.mul_add_div (by omega), Nat.div_eq_of_lt hlt, Nat.add_zero]
  rw [hq, hout, ← hsent, List.take_left]

/-- C98: as soon as the server is told that the client has closed, or that reading failed, it closes the stream; it does not otherwise. -/
theorem closes_on_error (hmem : mem ≠ []) (hu : unit ≤ mem.length) (h : Reach unit quiet c mem p s) : s.br.closed = true ↔ ∃ x ∈ s.br.calls, x.err ≠ SUCCESS := by
  refine ⟨fun hc => ?_, fun ⟨x, hx, he⟩ => (reach_both hmem hu h).2.errs x hx he⟩
  induction h with
  | init => cases hc
  | @step p p' s s' e h ha hs hn ih =>
    obtain ⟨hr, i⟩ := reach_both hmem hu h
    have j := StreamSocket.reach_inv hmem hr
    have old : s'.br.closed = s.br.closed → s'.br.calls = s.br.calls → ∃ x ∈ s'.br.calls, x.err ≠ SUCCESS := fun e1 e2 => by rw [e2]; exact ih (e1 ▸ hc)
    have sock : ∀ {m : Socket.Move}, (Socket.step s.sock m).map (fun k => { s with sock := k }) = some s' → s'.br = s.br := fun {m} hm => by
      cases hk : Socket.step s.sock m with
      | none => rw [hk] at hm; cases hm
      | some k => rw [hk] at hm; injection hm with hm; subst hm; rfl
    have same : s'.br = s.br → ∃ x ∈ s'.br.calls, x.err ≠ SUCCESS := fun q => old (by rw [q]) (by rw [q])
    cases e with
    | peerSends d => exact same (sock hs)
    | peerCloses => exact same (sock hs)
    | enter => exact same (sock hs)
    | timeout => exact same (sock hs)
    | leave =>
      unfold step at hs
      dsimp only at hs
      split at hs
      · cases hs
      · exact same (sock hs)
    | user a os =>
      unfold step at hs
      dsimp only at hs
      split at hs
      · cases hs
      cases hb : BufferedRead.step readHandler s.br (.user a) with
      | none => rw [hb] at hs; cases hs
      | some w =>
        rw [hb, Option.bind_some] at hs
        obtain ⟨f1, f2, f3, -⟩ := follow_eq hs
        have hna : a ≠ .close := by
          intro q; subst q
          unfold next at hn
          dsimp only at hn
          split at hn <;> first | cases hn | (next q => cases q)
        unfold BufferedRead.step at hb
        dsimp only at hb
        split at hb
        · cases hb
        cases a with
        | close => exact absurd rfl hna
        | consume n => injection hb with hb; subst hb; exact old (by rw [f1]; rfl) (by rw [f1]; rfl)
        | read jb =>
          injection hb with hb; subst hb
          have key : (BufferedRead.read s.br jb).closed = s.br.closed ∧ (BufferedRead.read s.br jb).calls = s.br.calls := by
            unfold BufferedRead.read
            split
            · split
              · exact ⟨rfl, rfl⟩
              · exact ⟨rfl, rfl⟩
            · exact ⟨rfl, rfl⟩
          exact old (by rw [f1]; exact key.1) (by rw [f1]; exact key.2)
    | loop os =>
      unfold step at hs
      dsimp only at hs
      split at hs
      · cases hs
      cases hb : BufferedRead.step readHandler s.br (.loop SUCCESS) with
      | none => rw [hb] at hs; cases hs
      | some w =>
        rw [hb, Option.bind_some] at hs
        obtain ⟨f1, f2, f3, -⟩ := follow_eq hs
        have hl : s.br.looping = true := by
          unfold BufferedRead.step at hb
          dsimp only at hb
          split at hb
          · assumption
          · cases hb
        by_cases hpr : p = .reading
        · subst hpr
          rcases loop_reading j.br i.job (i.shall (j.loopOpen hl)) hb with ⟨cl, l1, -⟩ | l | ⟨l1, -, -, l4, -⟩
          · rw [f1, l1] at hc
            have hc : s.br.closed = true := hc
            rw [j.loopOpen hl] at hc; cases hc
          · obtain ⟨cl, c1, c2⟩ := l.calls
            exact ⟨cl, by rw [f1, c1]; simp, c2⟩
          · exact old (by rw [f1, l4]) (by rw [f1, l1])
        · have hj : s.br.job = none := by rw [i.job, if_neg hpr]
          have hw' := loop_idle hj hb
          exact old (by rw [f1, hw']) (by rw [f1, hw'])
    | readable r =>
      unfold step at hs
      dsimp only at hs
      cases hk : Socket.step s.sock (.readable true r) with
      | none => rw [hk] at hs; cases hs
      | some k =>
        rw [hk, Option.bind_some] at hs
        split at hs
        · next t er d _ =>
          cases hb : BufferedRead.step readHandler s.br (if er = SUCCESS then .deliver d else .fail er) with
          | none => rw [hb] at hs; cases hs
          | some w =>
            rw [hb] at hs
            injection hs with hs
            subst hs
            have : w.closed = s.br.closed ∧ w.calls = s.br.calls := by
              by_cases hee : er = SUCCESS
              · rw [if_pos hee] at hb
                unfold BufferedRead.step at hb
                dsimp only at hb
                split at hb
                · injection hb with hb; subst hb; exact ⟨rfl, rfl⟩
                · cases hb
              · rw [if_neg hee] at hb
                unfold BufferedRead.step at hb
                dsimp only at hb
                split at hb
                · injection hb with hb; subst hb; exact ⟨rfl, rfl⟩
                · cases hb
            exact old this.1 this.2
        · injection hs with hs; subst hs; exact same rfl
    | write chain =>
      unfold step at hs
      dsimp only at hs
      split at hs
      · cases hs
      injection hs with hs; subst hs; exact same rfl
    | send r =>
      unfold step at hs
      dsimp only at hs
      split at hs
      · cases hs
      · split at hs
        · cases hs
        · next x _ _ =>
          cases hk : Socket.step s.sock (.write x.data r true) with
          | none => rw [hk] at hs; cases hs
          | some k =>
            rw [hk, Option.bind_some] at hs
            split at hs
            · exact same (settle_eq hs).1
            · injection hs with hs; subst hs; exact same rfl
            · exact same (settle_eq hs).1
            · cases hs
    | writable er =>
      unfold step at hs
      dsimp only at hs
      cases hk : Socket.step s.sock (.writable er) with
      | none => rw [hk] at hs; cases hs
      | some k =>
        rw [hk, Option.bind_some] at hs
        split at hs
        · exact same (settle_eq hs).1
        · cases hs

end

end Cio.Echo
