import Verif.TwoConnects.Inv
/-
The server's side of a connection of the two connects example.
-/
namespace Cio.TwoConnects
open BufferedRead (UAct Handler Job World Call)
open StreamSocket (Sys Ev Write step Allowed follow settle answer)
open PingPong (pings)

/-- The stream behind a handler that has closed it. -/
structure Ended (w w' : World) (c : Call) : Prop where
  calls : w'.calls = w.calls ++ [c]
  err : c.err ≠ SUCCESS
  before : c.consumed = w.consumed
  view : c.view = w.rb.unread
  closed : w'.closed = true
  job : w'.job = none
  consumed : w'.consumed = w.consumed
  waiting : w'.waiting = w.waiting
  misuse : w'.misuse = w.misuse

theorem call_error {unit : Nat} {w : World} {j : Job} {e : Err} {n : Nat} (he : e ≠ SUCCESS) :
    (BufferedRead.callHandler (serverReads unit) w j e n).2 = .closed ∧
      Ended w (BufferedRead.callHandler (serverReads unit) w j e n).1 ⟨j, e, n, w.rb.unread, w.consumed, w.received, w.rb.fetch⟩ := by
  unfold BufferedRead.callHandler
  dsimp only
  have : serverReads unit { w with job := none, callbackIsRunning := w.callbackIsRunning + 1, calls := w.calls ++ [⟨j, e, n, w.rb.unread, w.consumed, w.received, w.rb.fetch⟩] } = [.close] := by
    unfold serverReads
    dsimp only
    rw [List.getLast?_concat]
    dsimp only
    rw [if_neg he]
  rw [this]
  simp only [List.foldl_cons, List.foldl_nil, BufferedRead.act, BufferedRead.close]
  rw [if_neg (show ¬ (w.callbackIsRunning + 1 = 0) by omega)]
  simp only [Nat.add_sub_cancel, if_true]
  exact ⟨trivial, rfl, he, rfl, rfl, rfl, rfl, rfl, rfl, rfl⟩

/-- The stream behind a handler that has consumed a message and reads the next one. -/
structure Goes (unit : Nat) (w w' : World) (c : Call) : Prop where
  calls : w'.calls = w.calls ++ [c]
  err : c.err = SUCCESS
  num : c.num = unit
  view : c.view = w.rb.unread
  before : c.consumed = w.consumed
  enough : unit ≤ w.rb.unread.length
  closed : w'.closed = w.closed
  shall : w'.shallClose = w.shallClose
  job : w'.job = some (.atLeast unit)
  consumed : w'.consumed = w.consumed ++ w.rb.unread.take unit
  waiting : w'.waiting = w.waiting
  misuse : w'.misuse = w.misuse
  error : w'.lastError = SUCCESS

theorem call_success {unit sz : Nat} {w : World} {j : Job} (hi : BufferedRead.Inv sz w) (hu : unit ≤ sz) (hs : w.shallClose = false) (ha : unit ≤ w.rb.unreadBytes) :
    (BufferedRead.callHandler (serverReads unit) w j SUCCESS unit).2 = .open ∧
      Goes unit w (BufferedRead.callHandler (serverReads unit) w j SUCCESS unit).1 ⟨j, SUCCESS, unit, w.rb.unread, w.consumed, w.received, w.rb.fetch⟩ := by
  have hlen := BufferedRead.unread_length sz w.rb hi.core.rb
  unfold BufferedRead.callHandler
  dsimp only
  have : serverReads unit { w with job := none, callbackIsRunning := w.callbackIsRunning + 1, calls := w.calls ++ [⟨j, SUCCESS, unit, w.rb.unread, w.consumed, w.received, w.rb.fetch⟩] } =
      [.consume unit, .read (.atLeast unit)] := by
    unfold serverReads
    dsimp only
    rw [List.getLast?_concat]
    dsimp only
    rw [if_pos rfl]
  rw [this]
  have hsz : ¬ unit > (w.rb.consume unit).size := by
    have := hi.core.rb.1
    show ¬ unit > w.rb.mem.length
    omega
  have hc : (w.callbackIsRunning + 1 == 0) = false := by simp
  simp only [List.foldl_cons, List.foldl_nil, BufferedRead.act, BufferedRead.read]
  rw [if_neg hsz]
  unfold BufferedRead.read.go
  dsimp only
  rw [hc, hs]
  simp only [Bool.or_false, Nat.add_sub_cancel, Bool.false_eq_true, if_false]
  refine ⟨trivial, rfl, rfl, rfl, rfl, rfl, by rw [hlen]; exact ha, rfl, hs.symm, rfl, rfl, rfl, ?_, ?_⟩
  · show (w.misuse || decide (w.rb.unreadBytes < unit)) = w.misuse
    rw [decide_eq_false (by omega), Bool.or_false]
  · rfl

/-- One round of `run_read` while the server reads. -/
theorem loop_reading {unit sz : Nat} {w w' : World} (hi : BufferedRead.Inv sz w) (hu : unit ≤ sz) (hj : w.job = some (.atLeast unit)) (hsh : w.shallClose = false)
    (hfew : w.lastError ≠ SUCCESS → w.rb.unread.length < unit) (h : BufferedRead.step (serverReads unit) w (.loop SUCCESS) = some w') :
    (∃ c, Goes unit w w' c ∧ w'.lastError = SUCCESS) ∨ (∃ c, Ended w w' c ∧ w.rb.unread.length < unit) ∨
    (w'.lastError = SUCCESS ∧ w'.calls = w.calls ∧ w'.job = w.job ∧ w'.closed = w.closed ∧ w'.shallClose = false ∧ w'.consumed = w.consumed ∧ w'.misuse = w.misuse) := by
  unfold BufferedRead.step at h
  dsimp only at h
  by_cases hl : w.looping = true
  case neg => rw [if_neg hl] at h; cases h
  rw [if_pos hl] at h
  injection h with h
  subst h
  have hlen := BufferedRead.unread_length sz w.rb hi.core.rb
  have few : w.lastError ≠ SUCCESS ∨ ¬ unit ≤ w.rb.unreadBytes → w.rb.unread.length < unit := fun q => q.elim hfew fun q => by omega
  unfold BufferedRead.loopIter
  rw [hj]
  dsimp only
  by_cases he : w.lastError ≠ SUCCESS
  · have hr : BufferedRead.runJob (serverReads unit) w (.atLeast unit) = BufferedRead.callHandler (serverReads unit) w (.atLeast unit) w.lastError 0 := by
      unfold BufferedRead.runJob; rw [if_pos he]
    obtain ⟨c1, c2⟩ := call_error (unit := unit) (w := w) (j := .atLeast unit) (n := 0) he
    rw [hr]
    generalize BufferedRead.callHandler (serverReads unit) w (.atLeast unit) w.lastError 0 = z at c1 c2
    obtain ⟨z1, z2⟩ := z
    dsimp only at c1 c2
    subst c1
    exact Or.inr (Or.inl ⟨_, ⟨c2.calls, c2.err, c2.before, c2.view, c2.closed, c2.job, c2.consumed, c2.waiting, c2.misuse⟩, few (Or.inl he)⟩)
  · have he' : w.lastError = SUCCESS := Classical.byContradiction he
    by_cases ha : unit ≤ w.rb.unreadBytes
    · have hr : BufferedRead.runJob (serverReads unit) w (.atLeast unit) = BufferedRead.callHandler (serverReads unit) w (.atLeast unit) SUCCESS unit := by
        unfold BufferedRead.runJob; rw [if_neg he]; dsimp only; rw [if_pos ha]
      rw [hr]
      obtain ⟨c1, c2⟩ := call_success (j := .atLeast unit) hi hu hsh ha
      generalize BufferedRead.callHandler (serverReads unit) w (.atLeast unit) SUCCESS unit = z at c1 c2
      obtain ⟨z1, z2⟩ := z
      dsimp only at c1 c2
      subst c1
      exact Or.inl ⟨_, c2, c2.error⟩
    · have hr : BufferedRead.runJob (serverReads unit) w (.atLeast unit) = (w, .again) := by
        unfold BufferedRead.runJob; rw [if_neg he]; dsimp only; rw [if_neg ha]
      rw [hr]
      dsimp only
      have rs : ∀ v : World, BufferedRead.readSome (serverReads unit) v (.atLeast unit) SUCCESS = { v with waiting := true } := fun v => by
        unfold BufferedRead.readSome; rw [if_neg (by simp)]
      unfold BufferedRead.fillBuffer
      by_cases h1 : w.rb.spaceAvailable = 0
      · rw [if_pos h1]
        by_cases h2 : w.rb.fetch = 0
        · rw [if_pos h2]
          have hr2 : BufferedRead.runJob (serverReads unit) { w with lastError := MESSAGE_TOO_LONG } (.atLeast unit) =
              BufferedRead.callHandler (serverReads unit) { w with lastError := MESSAGE_TOO_LONG } (.atLeast unit) MESSAGE_TOO_LONG 0 := by
            unfold BufferedRead.runJob; rw [if_pos (by show MESSAGE_TOO_LONG ≠ SUCCESS; decide)]
          rw [hr2]
          obtain ⟨-, c2⟩ := call_error (unit := unit) (w := { w with lastError := MESSAGE_TOO_LONG }) (j := .atLeast unit) (e := MESSAGE_TOO_LONG) (n := 0) (by decide)
          exact Or.inr (Or.inl ⟨_, ⟨c2.calls, c2.err, c2.before, c2.view, c2.closed, c2.job, c2.consumed, c2.waiting, c2.misuse⟩, few (Or.inr ha)⟩)
        · rw [if_neg h2, rs]
          exact Or.inr (Or.inr ⟨he', rfl, hj.symm ▸ rfl, rfl, hsh, rfl, rfl⟩)
      · rw [if_neg h1, rs]
        exact Or.inr (Or.inr ⟨he', rfl, hj.symm ▸ rfl, rfl, hsh, rfl, rfl⟩)

structure SInv (unit : Nat) (b : Bool) (s : Sys) : Prop where
  misuse : s.br.misuse = false
  shall : s.br.closed = false → s.br.shallClose = false
  cur : s.cur = none
  done : s.done = []
  job : s.br.job = if b = true ∧ s.br.closed = false then some (.atLeast unit) else none
  fresh : b = false → s.br.calls = [] ∧ s.br.closed = false ∧ s.br.looping = false ∧ s.br.waiting = false
  count : s.br.consumed.length = unit * pings s.br
  calls : ∀ x ∈ s.br.calls, x.err = SUCCESS → x.num = unit ∧ unit ≤ x.view.length ∧ unit ∣ x.consumed.length
  errs : s.br.closed = true ↔ ∃ x ∈ s.br.calls, x.err ≠ SUCCESS
  few : s.br.closed = false → s.br.lastError ≠ SUCCESS → s.br.rb.unread.length < unit
  last : ∀ x ∈ s.br.calls, x.err ≠ SUCCESS → x.view.length < unit ∧ x.consumed = s.br.consumed

theorem server_init (unit : Nat) (c : Bool) (mem : List UInt8) : SInv unit false (StreamSocket.initial c mem) :=
  ⟨rfl, fun _ => rfl, rfl, rfl, rfl, fun _ => ⟨rfl, rfl, rfl, rfl⟩, rfl, (fun x hx => nomatch hx), ⟨(fun q => nomatch q), (fun ⟨x, hx, _⟩ => nomatch hx)⟩, (fun _ q => absurd rfl q), (fun x hx => nomatch hx)⟩

theorem SInv.same {unit : Nat} {b : Bool} {s t : Sys} (h : SInv unit b s) (e1 : t.br.misuse = s.br.misuse) (e2 : t.br.closed = s.br.closed) (e3 : t.br.shallClose = s.br.shallClose)
    (e4 : t.cur = s.cur) (e5 : t.br.job = s.br.job) (e6 : b = false → t.br.looping = s.br.looping ∧ t.br.waiting = s.br.waiting) (e8 : t.done = s.done) (e9 : t.br.consumed = s.br.consumed)
    (e10 : t.br.calls = s.br.calls) (e11 : s.br.closed = false → t.br.lastError ≠ SUCCESS → t.br.rb.unread.length < unit) : SInv unit b t := by
  obtain ⟨h1, h2, h3, h4, h5, h6, h7, h8, h9, h10, h11⟩ := h
  refine ⟨by rw [e1]; exact h1, by rw [e2, e3]; exact h2, by rw [e4]; exact h3, by rw [e8]; exact h4, by rw [e5, e2]; exact h5, fun q => ?_, ?_, by rw [e10]; exact h8, by rw [e2, e10]; exact h9, by rw [e2]; exact e11, by rw [e10, e9]; exact h11⟩
  · obtain ⟨g1, g2⟩ := e6 q
    rw [e10, e2, g1, g2]; exact h6 q
  · rw [e9, PingPong.pings_same e10]; exact h7

theorem server_step {quiet c : Bool} {mem : List UInt8} {unit : Nat} (hu : unit ≤ mem.length) {b b' : Bool} {s s' : Sys} {e : Ev} (i : StreamSocket.Inv quiet (serverReads unit) c mem s)
    (h : SInv unit b s) (hs : step (serverReads unit) s e = some s') (hp : serverNext unit b e = some b') : SInv unit b' s' := by
  have sock : ∀ {m : Socket.Move}, (Socket.step s.sock m).map (fun k => { s with sock := k }) = some s' → SInv unit b s' := fun {m} hm => by
    cases hk : Socket.step s.sock m with
    | none => rw [hk] at hm; cases hm
    | some k => rw [hk] at hm; injection hm with hm; subst hm; exact h.same rfl rfl rfl rfl rfl (fun _ => ⟨rfl, rfl⟩) rfl rfl rfl h.few
  cases e with
  | peerSends d => injection hp with hp; subst hp; exact sock hs
  | peerCloses => injection hp with hp; subst hp; exact sock hs
  | timeout => injection hp with hp; subst hp; exact sock hs
  | enter =>
    unfold serverNext at hp
    dsimp only at hp
    split at hp
    · injection hp with hp; subst hp; exact sock hs
    · cases hp
  | leave =>
    unfold serverNext at hp
    dsimp only at hp
    unfold step at hs
    dsimp only at hs
    split at hs
    · cases hs
    · split at hp
      · injection hp with hp; subst hp; exact sock hs
      · cases hp
  | write chain => cases hp
  | send r =>
    unfold step at hs
    dsimp only at hs
    rw [h.cur] at hs
    cases hs
  | writable err =>
    unfold step at hs
    dsimp only at hs
    cases hk : Socket.step s.sock (.writable err) with
    | none => rw [hk] at hs; cases hs
    | some k =>
      rw [hk, Option.bind_some, h.cur] at hs
      split at hs
      · next q _ => cases q
      · cases hs
  | readable r =>
    injection hp with hp; subst hp
    unfold step at hs
    dsimp only at hs
    cases hk : Socket.step s.sock (.readable true r) with
    | none => rw [hk] at hs; cases hs
    | some k =>
      rw [hk, Option.bind_some] at hs
      split at hs
      · next t er d _ =>
        have key : ∀ w, BufferedRead.step (serverReads unit) s.br (if er = SUCCESS then .deliver d else .fail er) = some w →
            s.br.waiting = true ∧ w.misuse = s.br.misuse ∧ w.closed = s.br.closed ∧ w.shallClose = s.br.shallClose ∧ w.job = s.br.job ∧ w.consumed = s.br.consumed ∧ w.calls = s.br.calls ∧ (w.lastError ≠ SUCCESS → w.rb.unread = s.br.rb.unread) := by
          intro w hst
          split at hst <;> unfold BufferedRead.step at hst <;> dsimp only at hst
          · by_cases hg : (s.br.waiting && !s.br.looping && !s.br.closed && decide (d.length ≤ s.br.rb.spaceAvailable)) = true
            · rw [if_pos hg] at hst
              injection hst with hst; subst hst
              simp only [Bool.and_eq_true] at hg
              exact ⟨hg.1.1.1, rfl, rfl, rfl, rfl, rfl, rfl, fun q => absurd rfl q⟩
            · rw [if_neg hg] at hst; cases hst
          · by_cases hg : (s.br.waiting && !s.br.looping && !s.br.closed && decide (er ≠ SUCCESS)) = true
            · rw [if_pos hg] at hst
              injection hst with hst; subst hst
              simp only [Bool.and_eq_true] at hg
              exact ⟨hg.1.1.1, rfl, rfl, rfl, rfl, rfl, rfl, fun _ => rfl⟩
            · rw [if_neg hg] at hst; cases hst
        cases hb : BufferedRead.step (serverReads unit) s.br (if er = SUCCESS then .deliver d else .fail er) with
        | none => rw [hb] at hs; cases hs
        | some w =>
          rw [hb] at hs
          injection hs with hs
          obtain ⟨k0, k1, k2, k3, k4, k5, k6, k7⟩ := key w hb
          subst hs
          refine h.same k1 k2 k3 rfl k4 (fun q => ?_) rfl k5 k6 fun q1 q2 => ?_
          · have := (h.fresh q).2.2.2
            rw [k0] at this; cases this
          · show w.rb.unread.length < unit
            rw [k7 q2]
            obtain ⟨-, -, j, g3, g4⟩ := i.br.wait k0
            rw [h.job] at g3
            split at g3
            · injection g3 with g3; subst g3; exact Nat.lt_of_not_le g4
            · cases g3
      · injection hs with hs; subst hs; exact h.same rfl rfl rfl rfl rfl (fun _ => ⟨rfl, rfl⟩) rfl rfl rfl h.few
  | user a os =>
    unfold serverNext at hp
    dsimp only at hp
    split at hp
    case isFalse => cases hp
    next hpa =>
    obtain ⟨hb0, ha⟩ := hpa
    injection hp with hp; subst hp
    subst ha
    unfold step at hs
    dsimp only at hs
    split at hs
    · cases hs
    · cases hb : BufferedRead.step (serverReads unit) s.br (.user (.read (.atLeast unit))) with
      | none => rw [hb] at hs; cases hs
      | some br =>
        rw [hb, Option.bind_some] at hs
        obtain ⟨f1, f2, f3, -⟩ := Echo.follow_eq hs
        obtain ⟨q1, q2, q3, q4⟩ := h.fresh hb0
        unfold BufferedRead.step at hb
        dsimp only at hb
        rw [if_neg (by rw [q2, q3]; decide)] at hb
        injection hb with hb
        have hsz : ¬ unit > s.br.rb.size := by
          have := i.br.core.rb.1
          show ¬ unit > s.br.rb.mem.length
          omega
        unfold BufferedRead.act BufferedRead.read at hb
        dsimp only at hb
        rw [if_neg hsz] at hb
        unfold BufferedRead.read.go at hb
        obtain ⟨h1, h2, h3, h4, h5, h6, h7, h8, h9, h10, h11⟩ := h
        subst hb
        refine ⟨by rw [f1]; show (s.br.misuse || s.br.waiting) = false; rw [h1, q4]; rfl, by rw [f1]; exact h2, by rw [f2]; exact h3, by rw [f3]; exact h4, ?_, (fun q => nomatch q), ?_, by rw [f1]; exact h8, by rw [f1]; exact h9, by rw [f1]; exact fun _ q => absurd rfl q, by rw [f1]; exact h11⟩
        · rw [f1]
          show some (Job.atLeast unit) = if true = true ∧ s.br.closed = false then _ else _
          rw [if_pos ⟨rfl, q2⟩]
        · rw [f1]; exact h7
  | loop os =>
    injection hp with hp; subst hp
    unfold step at hs
    dsimp only at hs
    split at hs
    · cases hs
    · cases hb : BufferedRead.step (serverReads unit) s.br (.loop SUCCESS) with
      | none => rw [hb] at hs; cases hs
      | some br =>
        rw [hb, Option.bind_some] at hs
        obtain ⟨f1, f2, f3, -⟩ := Echo.follow_eq hs
        have hlo : s.br.looping = true := by
          unfold BufferedRead.step at hb
          dsimp only at hb
          split at hb
          · assumption
          · cases hb
        have hcl := i.loopOpen hlo
        have hbt : b = true := by
          cases b with
          | true => rfl
          | false => have := (h.fresh rfl).2.2.1; rw [hlo] at this; cases this
        subst hbt
        have hj : s.br.job = some (.atLeast unit) := by rw [h.job, if_pos ⟨rfl, hcl⟩]
        rcases loop_reading i.br hu hj (h.shall hcl) (h.few hcl) hb with ⟨x, g, ge⟩ | ⟨x, g, gv⟩ | ⟨g0, g1, g2, g3, g4, g5, g6⟩
        · subst f1
          obtain ⟨h1, h2, h3, h4, h5, h6, h7, h8, h9, h10, h11⟩ := h
          have hsh := h2 hcl
          refine ⟨g.misuse.trans h1, fun _ => g.shall.trans hsh, f2.trans h3, f3.trans h4, ?_, (fun q => nomatch q), ?_, ?_, ?_, fun _ q => absurd ge q, ?_⟩
          · rw [g.job, g.closed, if_pos ⟨rfl, hcl⟩]
          · rw [g.consumed, List.length_append, List.length_take, Nat.min_eq_left g.enough, h7, PingPong.pings_concat g.calls, if_pos g.err, Nat.mul_add, Nat.mul_one]
          · intro y hy he
            rw [g.calls] at hy
            rcases List.mem_append.1 hy with hy | hy
            · exact h8 y hy he
            · rw [List.mem_singleton] at hy
              subst hy
              exact ⟨g.num, by rw [g.view]; exact g.enough, by rw [g.before, h7]; exact ⟨_, rfl⟩⟩
          · rw [g.closed, g.calls, h9]
            constructor
            · rintro ⟨y, hy, he⟩; exact ⟨y, List.mem_append_left _ hy, he⟩
            · rintro ⟨y, hy, he⟩
              rcases List.mem_append.1 hy with hy | hy
              · exact ⟨y, hy, he⟩
              · rw [List.mem_singleton] at hy; subst hy; exact absurd g.err he
          · intro y hy he
            have none : ∀ z ∈ s.br.calls, z.err = SUCCESS := fun z hz => Classical.byContradiction fun q => by rw [h9.2 ⟨z, hz, q⟩] at hcl; cases hcl
            rw [g.calls] at hy
            rcases List.mem_append.1 hy with hy | hy
            · exact absurd (none y hy) he
            · rw [List.mem_singleton] at hy
              subst hy
              exact absurd g.err he
        · subst f1
          obtain ⟨h1, h2, h3, h4, h5, h6, h7, h8, h9, h10, h11⟩ := h
          refine ⟨g.misuse.trans h1, fun q => ?_, f2.trans h3, f3.trans h4, ?_, (fun q => nomatch q), ?_, ?_, ?_, (fun q => by rw [g.closed] at q; cases q), ?_⟩
          · rw [g.closed] at q; cases q
          · rw [g.job, g.closed, if_neg (by simp)]
          · rw [g.consumed, h7, PingPong.pings_concat g.calls, if_neg g.err, Nat.add_zero]
          · intro y hy he
            rw [g.calls] at hy
            rcases List.mem_append.1 hy with hy | hy
            · exact h8 y hy he
            · rw [List.mem_singleton] at hy
              subst hy
              exact absurd he g.err
          · rw [g.closed, g.calls]
            exact ⟨fun _ => ⟨x, List.mem_append_right _ (List.mem_singleton_self x), g.err⟩, fun _ => rfl⟩
          · intro y hy he
            have none : ∀ z ∈ s.br.calls, z.err = SUCCESS := fun z hz => Classical.byContradiction fun q => by rw [h9.2 ⟨z, hz, q⟩] at hcl; cases hcl
            rw [g.calls] at hy
            rcases List.mem_append.1 hy with hy | hy
            · exact absurd (none y hy) he
            · rw [List.mem_singleton] at hy
              subst hy
              exact ⟨by rw [g.view]; exact gv, by rw [g.before, g.consumed]⟩
        · subst f1
          exact h.same g6 g3 (by rw [g4, h.shall hcl]) f2 g2 (fun q => nomatch q) f3 g5 g1 fun _ q => absurd g0 q

end Cio.TwoConnects
