import Verif.WsQueue.StepInv
import Verif.WsQueue.Mono
/-
The invariant is kept by each step, phase by phase.
-/
namespace Cio.WsQueue

theorem Base.pop' {w : World} {k : Kind} {q : List Kind} {x : List Nat} (b : Base w (k :: q) x) :
    Base (popped w k q) q (ticketOf (w.jobs k).handler ++ x) where
  core := b.core.pop
  cnt := by
    intro t
    have := b.cnt t
    rw [qT_cons, List.count_append] at this
    rw [qT_popped]
    show (completedT w.log).count t + _ + _ = if t < w.tickets then 1 else 0
    rw [← this, List.count_append]
    omega
  ord := b.ord
  c1 := b.c1
  c2 := b.c2
  succ := b.succ

theorem Base.complete' {w : World} {q : List Kind} {t : Nat} {x : List Nat} (b : Base w q (t :: x)) (r : Res) (ch : List Elem) (hr : r = .success → t ∈ sentT w.log) :
    Base (log w (.completed t r ch)) q x where
  core := b.core.congr rfl rfl rfl rfl id id
  cnt := by
    intro y
    have := b.cnt y
    show (t :: completedT w.log).count y + _ + (qT w q).count y = if y < w.tickets then 1 else 0
    rw [← this]
    simp only [List.count_cons]
    omega
  ord := b.ord.congr rfl (Nat.le_refl _)
  c1 := b.c1
  c2 := b.c2
  succ := by
    intro x hx
    have hx : (x, .success) ∈ (t, r) :: completedR w.log := hx
    rcases List.mem_cons.mp hx with h | h
    · injection h with h1 h2; subst h1; exact hr h2.symm
    · exact b.succ x h

theorem timer_false {w : World} {q : List Kind} (c : Core w q) (h : w.selfClose = false) : w.timer = false := by
  cases ht : w.timer
  · rfl
  · have := c.timer ht; rw [h] at this; cases this

theorem no_call {w : World} {st : List Item} {c : Choice} {call : Call} (hact : c.act = .call call) (ha : Allowed ⟨w, st⟩ c) :
    w.closedByError = false ∧ w.closes = 0 := by
  unfold Allowed at ha
  rw [hact] at ha
  exact ⟨ha.2.1, ha.2.2.1⟩

/-- A handler of a queued job other than the close job is not NULL. -/
theorem Ok.not_null {w : World} {k : Kind} (h : Ok w k) (hk : k ≠ .close) : (w.jobs k).handler ≠ .null := by
  cases k
  · obtain ⟨t, h⟩ := h.1; rw [h]; simp
  · obtain ⟨t, h⟩ := h.1; rw [h]; simp
  · rcases h.1 with ⟨t, h⟩ | h <;> rw [h] <;> simp
  · exact absurd rfl hk

theorem Ok.pong {w : World} {k : Kind} (h : Ok w k) (hk : k ≠ .close) (hp : (w.jobs k).handler = .pongWritten) : k = .pong := by
  cases k
  · obtain ⟨t, h⟩ := h.1; rw [h] at hp; cases hp
  · obtain ⟨t, h⟩ := h.1; rw [h] at hp; cases hp
  · rfl
  · exact absurd rfl hk

/-! ### dead, closing -/

theorem step_closeNow {w : World} {rest : List Item} (c : Choice) (hub : w.ub = false) :
    step ⟨w, .closeNow :: rest⟩ c = ⟨log { w with closes := w.closes + 1 } .closed, rest⟩ := by
  unfold step
  rw [if_neg (show ¬ w.ub = true from by rw [hub]; simp)]

theorem step_written {w : World} {c : Choice} {r : Res} (hact : c.act = .written r) (hub : w.ub = false) (hp : w.pend = true) (h0 : w.closes = 0) :
    step ⟨w, []⟩ c = onWritten { w with pend := false } r [] := by
  unfold step
  rw [if_neg (show ¬ w.ub = true from by rw [hub]; simp), hact]
  exact if_pos ⟨hp, h0⟩

theorem step_timer {w : World} {c : Choice} (hact : c.act = .timer) (hub : w.ub = false) (ht : w.timer = true) :
    step ⟨w, []⟩ c = ⟨{ w with timer := false }, [.closeNow]⟩ := by
  unfold step
  rw [if_neg (show ¬ w.ub = true from by rw [hub]; simp), hact]
  exact if_pos ht

theorem dead_inv {w : World} {st : List Item} {q : List Kind} (c : Choice) (hub : w.ub = false) (hb : Base w q []) (h0 : w.closes = 1) (hst : CalmSt st)
    (ht : w.timer = false) (hq : w.selfClose = false → qT w q = []) (ha : Allowed ⟨w, st⟩ c) : Inv (step ⟨w, st⟩ c) := by
  have hsame : Inv ⟨w, st⟩ := .inr (.inr ⟨hub, Phase.dead st q hb h0 hst ht hq⟩)
  have hne : ¬ w.closes = 0 := by omega
  cases st with
  | nil =>
    cases hact : c.act with
    | call call => exact absurd (no_call hact ha).2 hne
    | ret => simp only [step, hub, Bool.false_eq_true, if_false, hact]; exact hsame
    | written r => simp only [step, hub, Bool.false_eq_true, if_false, hact, hne, and_false]; exact hsame
    | timer => simp only [step, hub, Bool.false_eq_true, if_false, hact, ht]; exact hsame
    | _ => simp only [step, hub, Bool.false_eq_true, if_false, hact, hne, and_false]; exact hsame
  | cons i rest =>
    have hrest : Inv ⟨w, rest⟩ := .inr (.inr ⟨hub, Phase.dead rest q hb h0 hst.tail ht hq⟩)
    have hi := hst i List.mem_cons_self
    cases i with
    | user e =>
      cases hact : c.act with
      | call call => exact absurd (no_call hact ha).2 hne
      | ret => simp only [step, hub, Bool.false_eq_true, if_false, hact]; exact hrest
      | _ => simp only [step, hub, Bool.false_eq_true, if_false, hact]; exact hsame
    | input =>
      cases hact : c.act with
      | ret => simp only [step, hub, Bool.false_eq_true, if_false, hact]; exact hrest
      | _ => simp only [step, hub, Bool.false_eq_true, if_false, hact, hne, and_false]; exact hsame
    | sendNext o =>
      cases o with
      | none => simp only [step, hub, Bool.false_eq_true, if_false]; exact hrest
      | some k =>
        have h1 : w.closes > 0 := by omega
        simp only [step, hub, Bool.false_eq_true, if_false, h1, if_true]
        exact Inv.fault (s := ⟨w, _⟩) (hb.j (by omega)) (.inr hne)
    | _ => cases hi

theorem closing_inv {w : World} {rest : List Item} {q : List Kind} (c : Choice) (hub : w.ub = false) (hb : Base w q []) (h0 : w.closes = 0)
    (hst : CalmSt rest) (ht : w.timer = false) (hq : w.selfClose = false → qT w q = []) : Inv (step ⟨w, .closeNow :: rest⟩ c) := by
  rw [step_closeNow c hub]
  refine .inr (.inr ⟨hub, Phase.dead rest q ?_ ?_ hst ht hq⟩)
  · exact hb.congr rfl rfl rfl rfl id id rfl rfl rfl rfl
  · show w.closes + 1 = 1; omega

/-! ### the error path -/

theorem immCall_inv {w : World} {rest : List Item} (res : Res) (c : Choice) (hub : w.ub = false) (hb : Base w [] []) (hsc : w.selfClose = false)
    (h0 : w.closes = 0) (hst : CalmSt rest) (hh : (w.jobs .close).handler = .null) : Inv (step ⟨w, .callClose res :: .closeNow :: rest⟩ c) := by
  have h1 : ¬ w.closes > 0 := by omega
  simp only [step, hub, Bool.false_eq_true, if_false, if_neg h1, hh, callHandler]
  exact .inr (.inr ⟨hub, Phase.closing rest [] hb h0 hst (timer_false hb.core hsc) (fun _ => rfl)⟩)

theorem immAbort_inv {w : World} {rest : List Item} {q : List Kind} (res : Res) (c : Choice) (hub : w.ub = false) (hb : Base w q [])
    (he : w.closedByError = true) (hsc : w.selfClose = false) (h0 : w.closes = 0) (hst : CalmSt rest)
    (hp : ∀ k ∈ q, (w.jobs k).handler = .pongWritten) (hh : (w.jobs .close).handler = .null) :
    Inv (step ⟨w, .abort :: .callClose res :: .closeNow :: rest⟩ c) := by
  cases q with
  | nil =>
    rw [abort_nil c hub h0 hb.core]
    exact .inr (.inr ⟨hub, Phase.immCall res rest hb he hsc h0 hst hh⟩)
  | cons k q =>
    rw [abort_cons c hub h0 hb.core]
    have hk := hp k List.mem_cons_self
    have hb' := hb.pop
    rw [hk] at hb'
    rw [hk]
    have : callHandler (popped w k q) .pongWritten .aborted ((w.jobs k).wbh.getD []) (.abort :: .callClose res :: .closeNow :: rest) =
        ⟨popped w k q, .abort :: .callClose res :: .closeNow :: rest⟩ := by
      simp only [callHandler, pongWritten, handleError]
      rw [if_pos (by simp), if_pos (by exact he)]
    rw [this]
    refine .inr (.inr ⟨hub, Phase.immAbort res rest q hb' he hsc h0 hst ?_ ?_⟩)
    · intro x hx; rw [popped_handler]; exact hp x (List.mem_cons_of_mem _ hx)
    · rw [popped_handler]; exact hh

/-! ### the user's close frame is written -/

theorem closeCall_inv {w : World} {rest : List Item} {t : Nat} (res : Res) (c : Choice) (hub : w.ub = false) (hb : Base w [] [t])
    (hh : (w.jobs .close).handler = .user t) (he : w.closedByError = false) (hsc : w.selfClose = true) (h0 : w.closes = 0) (hp : w.pend = false)
    (hst : CalmSt rest) (hs : somes rest = []) (htok : w.reading = true → w.turn = false) (hsent : t ∈ sentT w.log) : Inv (step ⟨w, .callClose res :: rest⟩ c) := by
  have h1 : ¬ w.closes > 0 := by omega
  simp only [step, hub, Bool.false_eq_true, if_false, if_neg h1, hh, callHandler]
  have hb' := hb.complete res [] (fun _ => hsent)
  refine .inr (.inr ⟨hub, Phase.calm _ [] [] ?_⟩)
  exact { base := hb', calm := CalmSt.cons rfl hst, cbe := he, open_ := h0, send := .idle hp (by rw [somes_cons_none rfl]; exact hs),
          ord := hb'.ord, c1 := (by simpa using hb'.c1), c2 := (by intro h; exact absurd (show w.selfClose = false from h) (by rw [hsc]; simp)),
          tok := ⟨htok, fun h => (by cases h), fun h => (by cases h)⟩ }

theorem closeAbort_inv {w : World} {rest : List Item} {q : List Kind} {t : Nat} (b : Bool) (res : Res) (c : Choice) (hub : w.ub = false)
    (hb : Base w q [t]) (hh : (w.jobs .close).handler = .user t) (hn : .close ∉ q) (he : w.closedByError = false) (hsc : w.selfClose = true)
    (h0 : w.closes = 0) (hp : w.pend = false) (hst : CalmSt rest) (hs : somes rest = []) (htok : w.reading = true → w.turn = false) (hsent : t ∈ sentT w.log)
    (ha : Allowed ⟨w, pre b ++ .abort :: .callClose res :: rest⟩ c) : Inv (step ⟨w, pre b ++ .abort :: .callClose res :: rest⟩ c) := by
  have hk : ∀ b, Inv ⟨w, pre b ++ .abort :: .callClose res :: rest⟩ := fun b =>
    .inr (.inr ⟨hub, Phase.closeAbort b res rest q t hb hh hn he hsc h0 hp hst hs htok hsent⟩)
  cases b with
  | true =>
    rcases user_step c hub ha with h | h
    · have h : step ⟨w, pre true ++ .abort :: .callClose res :: rest⟩ c = ⟨w, pre false ++ .abort :: .callClose res :: rest⟩ := h
      rw [h]; exact hk _
    · have h : step ⟨w, pre true ++ .abort :: .callClose res :: rest⟩ c = ⟨w, pre true ++ .abort :: .callClose res :: rest⟩ := h
      rw [h]; exact hk _
  | false =>
    show Inv (step ⟨w, .abort :: .callClose res :: rest⟩ c)
    cases q with
    | nil =>
      rw [abort_nil c hub h0 hb.core]
      exact .inr (.inr ⟨hub, Phase.closeCall res rest t hb hh he hsc h0 hp hst hs htok hsent⟩)
    | cons k q =>
      rw [abort_cons c hub h0 hb.core]
      have hkc : k ≠ .close := fun h => hn (h ▸ List.mem_cons_self)
      have hp' := hb.pop'
      cases hkh : (w.jobs k).handler with
      | null => exact absurd hkh ((hb.core.ok k List.mem_cons_self).not_null hkc)
      | stale => exact absurd hkh (hb.core.ok k List.mem_cons_self).not_stale
      | user t' =>
        rw [hkh] at hp'
        refine .inr (.inr ⟨hub, Phase.closeAbort true res rest q t (Base.complete' hp' _ _ (fun h => (by cases h))) ?_ ?_ he hsc h0 hp hst hs htok hsent⟩)
        · show ((popped w k q).jobs .close).handler = _
          rw [popped_handler]; exact hh
        · exact fun h => hn (List.mem_cons_of_mem _ h)
      | pongWritten =>
        refine .inl ?_
        simp only [callHandler, pongWritten, handleError]
        rw [if_pos (by simp), if_neg (show ¬ (popped w k q).closedByError = true from by show ¬ w.closedByError = true; rw [he]; simp)]
        exact ⟨rfl, hsc⟩

/-! ### the answer to the peer's close frame is written -/

theorem respAbort_inv {w : World} {rest : List Item} {q : List Kind} (b : Bool) (c : Choice) (hub : w.ub = false)
    (hb : Base w q []) (hn : .close ∉ q) (he : w.closedByError = false) (hsc : w.selfClose = false)
    (h0 : w.closes = 0) (hst : CalmSt rest) (hp : ¬ (.pong ∈ q ∧ (w.jobs .pong).handler = .pongWritten))
    (ha : Allowed ⟨w, pre b ++ .abort :: .closeNow :: rest⟩ c) : Inv (step ⟨w, pre b ++ .abort :: .closeNow :: rest⟩ c) := by
  have hk : ∀ b, Inv ⟨w, pre b ++ .abort :: .closeNow :: rest⟩ := fun b =>
    .inr (.inr ⟨hub, Phase.respAbort b rest q hb hn he hsc h0 hst hp⟩)
  cases b with
  | true =>
    rcases user_step c hub ha with h | h
    · have h : step ⟨w, pre true ++ .abort :: .closeNow :: rest⟩ c = ⟨w, pre false ++ .abort :: .closeNow :: rest⟩ := h
      rw [h]; exact hk _
    · have h : step ⟨w, pre true ++ .abort :: .closeNow :: rest⟩ c = ⟨w, pre true ++ .abort :: .closeNow :: rest⟩ := h
      rw [h]; exact hk _
  | false =>
    show Inv (step ⟨w, .abort :: .closeNow :: rest⟩ c)
    cases q with
    | nil =>
      rw [abort_nil c hub h0 hb.core]
      exact .inr (.inr ⟨hub, Phase.closing rest [] hb h0 hst (timer_false hb.core hsc) (fun _ => rfl)⟩)
    | cons k q =>
      rw [abort_cons c hub h0 hb.core]
      have hkc : k ≠ .close := fun h => hn (h ▸ List.mem_cons_self)
      have hp' := hb.pop
      cases hkh : (w.jobs k).handler with
      | null => exact absurd hkh ((hb.core.ok k List.mem_cons_self).not_null hkc)
      | stale => exact absurd hkh (hb.core.ok k List.mem_cons_self).not_stale
      | user t' =>
        rw [hkh] at hp'
        refine .inr (.inr ⟨hub, Phase.respAbort true rest q (hp'.complete _ _ (fun h => (by cases h))) ?_ he hsc h0 hst ?_⟩)
        · exact fun h => hn (List.mem_cons_of_mem _ h)
        · show ¬ (_ ∧ ((popped w k q).jobs .pong).handler = _)
          rw [popped_handler]
          exact fun h => hp ⟨List.mem_cons_of_mem _ h.1, h.2⟩
      | pongWritten =>
        have := (hb.core.ok k List.mem_cons_self).pong hkc hkh
        subst this
        exact absurd ⟨List.mem_cons_self, hkh⟩ hp

/-! ### the close frame of `handle_error` is being sent -/

theorem errored_arrive {w : World} {st : List Item} {q' : List Kind} (a : Act) (tr : Outcome) (hub : w.ub = false) (hb : Base w (.close :: q') [])
    (he : w.closedByError = true) (hsc : w.selfClose = false) (h0 : w.closes = 0) (hst : CalmSt st) (hp : w.pend = true)
    (hbs : w.bsHandler = .closeWrittenImmediate) (hh : (w.jobs .close).handler = .null)
    (hq : q' = [] ∨ (q' = [.pong] ∧ (w.jobs .pong).handler = .pongWritten ∧ w.reading = false))
    (hs : ∀ k ∈ somes st, k ≠ .close ∧ w.reading = false ∧ q' = []) (hr : w.reading = true) : Inv (arrive w a tr st) := by
  have hq' : q' = [] := by
    rcases hq with h | h
    · exact h
    · rw [hr] at h; cases h.2.2
  subst hq'
  have hns : ∀ k, k ∉ somes st := by
    intro k hk
    have := (hs k hk).2.1
    rw [hr] at this; cases this
  have hsame : Inv ⟨w, st⟩ := .inr (.inr ⟨hub, Phase.errored st [] hb he hsc h0 hst hp hbs hh (.inl rfl) hs⟩)
  have hlast : w.last = some .close := hb.core.last (by simp)
  have hfirst : w.first = some .close := hb.core.first
  cases a with
  | gotData =>
    refine .inr (.inr ⟨hub, Phase.errored (w := { w with reading := false, turn := true }) (.user false :: st) [] ?_ he hsc h0 (CalmSt.cons rfl hst) hp hbs hh (.inl rfl) ?_⟩)
    · exact hb.congr rfl rfl rfl rfl id id rfl rfl rfl rfl
    · intro k hk; rw [somes_cons_none rfl] at hk; exact absurd hk (hns k)
  | gotPong => exact hsame
  | fail =>
    have e : arrive w .fail tr st = ⟨{ w with reading := false }, st⟩ := by
      unfold arrive handleError
      exact if_pos he
    rw [e]
    refine .inr (.inr ⟨hub, Phase.errored (w := { w with reading := false }) st [] ?_ he hsc h0 hst hp hbs hh (.inl rfl) ?_⟩)
    · exact hb.congr rfl rfl rfl rfl id id rfl rfl rfl rfl
    · intro k hk; exact absurd hk (hns k)
  | gotPing n =>
    simp only [arrive, enqueue]
    have e1 : (setJob { w with reading := false } .pong { w.jobs .pong with
      wbh := some (if n > 0 then [.usr n] else []), handler := .pongWritten, opcode := 10, lastFrame := true, streamHandler := .messageWritten }).first = some .close := hfirst
    have e2 : (setJob { w with reading := false } .pong { w.jobs .pong with
      wbh := some (if n > 0 then [.usr n] else []), handler := .pongWritten, opcode := 10, lastFrame := true, streamHandler := .messageWritten }).last = some .close := hlast
    simp only [e1, e2]
    refine .inr (.inr ⟨hub, Phase.errored st [.pong] ⟨?_, ?_, hb.ord, hb.c1, hb.c2, hb.succ⟩ he hsc h0 hst hp hbs ?_ (.inr ⟨rfl, ?_, rfl⟩) ?_⟩)
    · refine hb.core.snoc (q := [.close]) (k := .pong) (l := .close) rfl (by simp) ?_ ?_ ?_ ?_ ?_ rfl rfl ?_ ?_ hb.core.timer (.inl rfl) id
      · intro x hx; cases x <;> simp [setJob] at hx ⊢
      · intro x hx; cases x <;> simp [setJob] at hx ⊢
      · intro x hx; cases x <;> simp [setJob] at hx ⊢
      · intro x hx; cases x <;> simp [setJob] at hx ⊢
      · simp [setJob]
      · simp [setJob]
      · simp [Ok, setJob]
    · intro t
      have := hb.cnt t
      simp [qT, ticketOf, hh] at this
      simp [qT, ticketOf, hh, setJob]
      exact this
    · simp [setJob, hh]
    · simp [setJob]
    · intro k hk; exact absurd hk (hns k)
  | gotClose n =>
    simp only [arrive, hsc, Bool.false_eq_true, if_false, enqueue]
    have e1 : (prepareClose { w with reading := false } n .null .responseCloseWritten).first = some .close := hfirst
    have e2 : (prepareClose { w with reading := false } n .null .responseCloseWritten).last = some .close := hlast
    have e1' : (prepareClose { w with reading := false, selfClose := false } n .null .responseCloseWritten).first = some .close := hfirst
    have e2' : (prepareClose { w with reading := false, selfClose := false } n .null .responseCloseWritten).last = some .close := hlast
    simp only [e1, e2, e1', e2']
    refine .inr (.inr ⟨hub, Phase.errored st [] ⟨?_, ?_, hb.ord, hb.c1, fun _ => hb.c2 hsc, hb.succ⟩ he (by first | exact hsc | rfl) h0 hst hp hbs ?_ (.inl rfl) ?_⟩)
    · refine ⟨hfirst, fun _ => rfl, trivial, by simp, ?_, ?_, ?_, ?_⟩
      · intro x hx; simp at hx; subst hx; simp [setJob, prepareClose]
      · intro x hx hc
        have := hb.core.free x hx hc
        cases x <;> simp [setJob, prepareClose] at hc ⊢ <;> exact this
      · intro x hx; simp at hx; subst hx
        exact .inr (.inr ⟨by simp [setJob, prepareClose], he⟩)
      · have := timer_false hb.core hsc
        intro h; exact absurd (show w.timer = true from h) (by rw [this]; simp)
    · intro t
      have := hb.cnt t
      simp [qT, ticketOf, hh] at this
      simp [qT, ticketOf, setJob, prepareClose]
      exact this
    · simp [setJob, prepareClose]
    · intro k hk; exact absurd hk (hns k)
  | _ => exact hsame

theorem errored_inv {w : World} {st : List Item} {q' : List Kind} (c : Choice) (hub : w.ub = false) (hb : Base w (.close :: q') [])
    (he : w.closedByError = true) (hsc : w.selfClose = false) (h0 : w.closes = 0) (hst : CalmSt st) (hp : w.pend = true)
    (hbs : w.bsHandler = .closeWrittenImmediate) (hh : (w.jobs .close).handler = .null)
    (hq : q' = [] ∨ (q' = [.pong] ∧ (w.jobs .pong).handler = .pongWritten ∧ w.reading = false))
    (hs : ∀ k ∈ somes st, k ≠ .close ∧ w.reading = false ∧ q' = []) (ha : Allowed ⟨w, st⟩ c) : Inv (step ⟨w, st⟩ c) := by
  have hsame : Inv ⟨w, st⟩ := .inr (.inr ⟨hub, Phase.errored st q' hb he hsc h0 hst hp hbs hh hq hs⟩)
  have hnc : ∀ call, c.act ≠ .call call := by
    intro call h
    have := (no_call h ha).1
    rw [he] at this; cases this
  have hpop : ∀ i rest, CalmSt rest → somes rest ⊆ somes (i :: rest) → st = i :: rest → Inv ⟨w, rest⟩ := by
    intro i rest h1 h2 h3
    subst h3
    exact .inr (.inr ⟨hub, Phase.errored rest q' hb he hsc h0 h1 hp hbs hh hq (fun k hk => hs k (h2 hk))⟩)
  have harr : w.reading = true → ∀ a, Inv (arrive w a c.tr st) := fun hr a =>
    errored_arrive a c.tr hub hb he hsc h0 hst hp hbs hh hq hs hr
  have ht := timer_false hb.core hsc
  cases st with
  | nil =>
    cases hact : c.act with
    | call call => exact absurd hact (hnc _)
    | ret => simp only [step, hub, Bool.false_eq_true, if_false, hact]; exact hsame
    | written r =>
      rw [step_written hact hub hp h0]
      have hb1 : Base { w with pend := false } (.close :: q') [] := hb.congr rfl rfl rfl rfl id id rfl rfl rfl rfl
      have hb2 := hb1.pop
      rw [show (({ w with pend := false } : World).jobs .close).handler = .null from hh] at hb2
      have e : onWritten { w with pend := false } r [] = ⟨popped { w with pend := false } .close q', [.abort, .callClose r, .closeNow]⟩ := by
        rw [onWritten_eq hb1.core]
        show (match w.bsHandler with | .messageWritten => _ | .closeWritten => _ | .closeWrittenImmediate => _ | .responseCloseWritten => _) = _
        rw [hbs]
      rw [e]
      refine .inr (.inr ⟨hub, Phase.immAbort r [] q' hb2 he hsc h0 hst ?_ ?_⟩)
      · intro k hk
        rw [popped_handler]
        rcases hq with h | h
        · subst h; cases hk
        · rw [h.1] at hk; simp at hk; subst hk; exact h.2.1
      · rw [popped_handler]; exact hh
    | timer => simp only [step, hub, Bool.false_eq_true, if_false, hact, ht]; exact hsame
    | _ =>
      simp only [step, hub, Bool.false_eq_true, if_false, hact, h0, and_true]
      by_cases hr : w.reading = true
      · rw [if_pos hr]; exact harr hr _
      · rw [if_neg hr]; exact hsame
  | cons i rest =>
    have hi := hst i List.mem_cons_self
    cases i with
    | user e =>
      have hrest : Inv ⟨w, rest⟩ := hpop _ rest hst.tail (by rw [somes_cons_none rfl]; exact fun _ h => h) rfl
      cases hact : c.act with
      | call call => exact absurd hact (hnc _)
      | ret => simp only [step, hub, Bool.false_eq_true, if_false, hact]; exact hrest
      | _ => simp only [step, hub, Bool.false_eq_true, if_false, hact]; exact hsame
    | input =>
      have hrest : Inv ⟨w, rest⟩ := hpop _ rest hst.tail (by rw [somes_cons_none rfl]; exact fun _ h => h) rfl
      cases hact : c.act with
      | call call => exact absurd hact (hnc _)
      | ret => simp only [step, hub, Bool.false_eq_true, if_false, hact]; exact hrest
      | written _ => simp only [step, hub, Bool.false_eq_true, if_false, hact]; exact hsame
      | timer => simp only [step, hub, Bool.false_eq_true, if_false, hact]; exact hsame
      | _ =>
        simp only [step, hub, Bool.false_eq_true, if_false, hact, h0, and_true]
        by_cases hr : w.reading = true
        · rw [if_pos hr]; exact harr hr _
        · rw [if_neg hr]; exact hsame
    | sendNext o =>
      cases o with
      | none =>
        simp only [step, hub, Bool.false_eq_true, if_false]
        exact hpop _ rest hst.tail (by rw [somes_cons_none rfl]; exact fun _ h => h) rfl
      | some k =>
        have h1 : ¬ w.closes > 0 := by omega
        have hk := hs k (by rw [somes_cons_some]; exact List.mem_cons_self)
        have hw : (w.jobs k).wbh = none := hb.core.free k (by rw [hk.2.2]; simpa using hk.1) hk.1
        simp only [step, hub, Bool.false_eq_true, if_false, if_neg h1, hw]
        exact Inv.fault (s := ⟨w, _⟩) (hb.j (by omega)) (.inl he)
    | _ => cases hi

/-! ### the calm phase -/

theorem calm_inv {w : World} {st : List Item} {q u : List Kind} (c : Choice) (hub : w.ub = false) (hc : Calm w st q u) (ha : Allowed ⟨w, st⟩ c) :
    Inv (step ⟨w, st⟩ c) := by
  have hsame : Inv ⟨w, st⟩ := .inr (.inr ⟨hub, Phase.calm st q u hc⟩)
  have hpop : ∀ i rest, someOf i = none → st = i :: rest → Inv ⟨w, rest⟩ := by
    intro i rest h2 h3
    subst h3
    exact .inr (.inr ⟨hub, Phase.calm rest q u (hc.congr hc.calm.tail (somes_cons_none h2).symm (fun _ _ => rfl) (fun _ _ _ => rfl) rfl rfl rfl rfl id
      rfl rfl rfl rfl rfl rfl rfl hc.tok)⟩)
  have hcall : ∀ call, c.act = .call call → Inv (doCall w call c.tr st) := by
    intro call h
    unfold Allowed at ha
    rw [h] at ha
    exact doCall_inv hc hub call c.tr ha.2.2.2
  have harr : ∀ a, c.act = a → w.reading = true → Inv (arrive w a c.tr st) := by
    intro a h hr
    refine arrive_inv hc hub hr a c.tr ?_
    unfold Allowed at ha
    rw [h] at ha
    cases a <;> first | exact ha | exact ha.1 | trivial
  have h0 := hc.open_
  cases st with
  | nil =>
    cases hact : c.act with
    | call call =>
      simp only [step, hub, Bool.false_eq_true, if_false, hact, h0, if_true]; exact hcall call hact
    | ret => simp only [step, hub, Bool.false_eq_true, if_false, hact]; exact hsame
    | written r =>
      by_cases hp : w.pend = true
      · rw [step_written hact hub hp h0]
        have hs := hc.send
        cases hs with
        | idle h => rw [h] at hp; cases hp
        | wait k u h => rw [h] at hp; cases hp
        | flight k u h1 h2 h3 h4 =>
          refine onWritten_inv (k := k) (q := u) ?_ rfl r
          exact { base := hc.base.congr rfl rfl rfl rfl id id rfl rfl rfl rfl, ub := hub, calm := hc.calm, nosome := h2, bs := h3, sent := h4, cbe := hc.cbe, open_ := hc.open_,
                  ord := hc.ord, c1 := hc.c1,
                  c2 := (fun a b => by have := (hc.c2 a b).2; simpa using this), tok := ⟨hc.tok.t1, hc.tok.t2, hc.tok.t3⟩ }
      · simp only [step, hub, Bool.false_eq_true, if_false, hact, hp, false_and]; exact hsame
    | timer =>
      by_cases ht : w.timer = true
      · rw [step_timer hact hub ht]
        have hsc := hc.base.core.timer ht
        refine .inr (.inr ⟨hub, Phase.closing (w := { w with timer := false }) [] q ?_ h0 hc.calm rfl ?_⟩)
        · exact hc.base.congr rfl rfl rfl rfl id (fun h => (by cases h)) rfl rfl rfl rfl
        · intro h; exact absurd (show w.selfClose = false from h) (by rw [hsc]; simp)
      · simp only [step, hub, Bool.false_eq_true, if_false, hact, ht]; exact hsame
    | _ =>
      simp only [step, hub, Bool.false_eq_true, if_false, hact, h0, and_true]
      by_cases hr : w.reading = true
      · rw [if_pos hr]; exact harr _ hact hr
      · rw [if_neg hr]; exact hsame
  | cons i rest =>
    have hi := hc.calm i List.mem_cons_self
    cases i with
    | user e =>
      cases hact : c.act with
      | call call =>
        simp only [step, hub, Bool.false_eq_true, if_false, hact, h0, if_true]; exact hcall call hact
      | ret => simp only [step, hub, Bool.false_eq_true, if_false, hact]; exact hpop _ rest rfl rfl
      | _ => simp only [step, hub, Bool.false_eq_true, if_false, hact]; exact hsame
    | input =>
      cases hact : c.act with
      | call call => simp only [step, hub, Bool.false_eq_true, if_false, hact]; exact hsame
      | ret => simp only [step, hub, Bool.false_eq_true, if_false, hact]; exact hpop _ rest rfl rfl
      | written _ => simp only [step, hub, Bool.false_eq_true, if_false, hact]; exact hsame
      | timer => simp only [step, hub, Bool.false_eq_true, if_false, hact]; exact hsame
      | _ =>
        simp only [step, hub, Bool.false_eq_true, if_false, hact, h0, and_true]
        by_cases hr : w.reading = true
        · rw [if_pos hr]; exact harr _ hact hr
        · rw [if_neg hr]; exact hsame
    | sendNext o =>
      cases o with
      | none =>
        simp only [step, hub, Bool.false_eq_true, if_false]
        exact hpop _ rest rfl rfl
      | some k =>
        have h1 : ¬ w.closes > 0 := by omega
        have hs := hc.send
        cases hs with
        | idle h h' => rw [somes_cons_some] at h'; cases h'
        | flight k' u h h' => rw [somes_cons_some] at h'; cases h'
        | wait k' u hp h' =>
          rw [somes_cons_some] at h'
          obtain ⟨hk, hrest⟩ := List.cons.inj h'
          subst hk
          have hb := hc.base.core.busy k List.mem_cons_self
          cases hw : (w.jobs k).wbh with
          | none => exact absurd hw hb
          | some chain =>
            simp only [step, hub, Bool.false_eq_true, if_false, if_neg h1, hw]
            refine sendFrame_inv (q := u) ?_ _ _
            exact { base := hc.base, ub := hub, calm := hc.calm.tail, nosome := hrest, cbe := hc.cbe, open_ := h0, pend := hp, ord := hc.ord, c1 := hc.c1,
                    c2 := (fun a b => by have := (hc.c2 a b).1; rw [hp] at this; cases this), tok := hc.tok }
    | _ => cases hi

theorem step_inv (s : State) (c : Choice) (h : Inv s) (ha : Allowed s c) : Inv (step s c) := by
  obtain ⟨w, st⟩ := s
  rcases h with h | h | ⟨hub, p⟩
  · exact .inl ⟨(keeps_step ⟨w, st⟩ c).1 h.1, (keeps_step ⟨w, st⟩ c).2 h.2⟩
  · have : step ⟨w, st⟩ c = ⟨w, st⟩ := by unfold step; rw [if_pos (show w.ub = true from h.1)]
    rw [this]
    exact .inr (.inl h)
  · cases p with
    | calm _ q u hc => exact calm_inv c hub hc ha
    | errAbort b rest q h1 h2 h3 h4 h5 h6 h7 => exact errAbort_inv b c hub h1 h2 h3 h4 h5 h6 h7 ha
    | errClose rest h1 h2 h3 h4 h5 h6 h7 => exact errClose_inv c hub h1 h2 h3 h4 h5 h6 h7
    | errored _ q' h1 h2 h3 h4 h5 h6 h7 h8 h9 h10 => exact errored_inv c hub h1 h2 h3 h4 h5 h6 h7 h8 h9 h10 ha
    | immAbort res rest q h1 h2 h3 h4 h5 h6 h7 => exact immAbort_inv res c hub h1 h2 h3 h4 h5 h6 h7
    | immCall res rest h1 h2 h3 h4 h5 h6 => exact immCall_inv res c hub h1 h3 h4 h5 h6
    | closeAbort b res rest q t h1 h2 h3 h4 h5 h6 h7 h8 h9 h10 h11 => exact closeAbort_inv b res c hub h1 h2 h3 h4 h5 h6 h7 h8 h9 h10 h11 ha
    | closeCall res rest t h1 h2 h3 h4 h5 h6 h7 h8 h9 h10 => exact closeCall_inv res c hub h1 h2 h3 h4 h5 h6 h7 h8 h9 h10
    | respAbort b rest q h1 h2 h3 h4 h5 h6 h7 => exact respAbort_inv b c hub h1 h2 h3 h4 h5 h6 h7 ha
    | closing rest q h1 h2 h3 h4 h5 => exact closing_inv c hub h1 h2 h3 h4 h5
    | dead _ q h1 h2 h3 h4 h5 => exact dead_inv c hub h1 h2 h3 h4 h5 ha

theorem reach_inv {s : State} (h : Reach s) : Inv s := by
  induction h with
  | init =>
    refine .inr (.inr ⟨rfl, Phase.calm [] [] [] ?_⟩)
    have core : Core {} [] := ⟨rfl, fun h => absurd rfl h, trivial, by simp, fun k hk => (by cases hk), fun _ _ _ => rfl, fun k hk => (by cases hk), fun h => (by cases h)⟩
    have ord : Ord {} [] := ⟨List.Pairwise.nil, fun t ht => (by cases ht)⟩
    exact { base := ⟨core, fun t => rfl, ord, (by simp [sentK]), fun _ h => (by cases h), fun t ht => (by cases ht)⟩, calm := (fun i hi => by cases hi), cbe := rfl, open_ := rfl,
            send := .idle rfl rfl, ord := ord, c1 := (by simp [sentK]), c2 := (fun _ h => by cases h),
            tok := ⟨fun h => (by cases h), fun h => (by cases h), fun h => (by cases h)⟩ }
  | step s c _ ha ih => exact step_inv s c ih ha

end Cio.WsQueue
