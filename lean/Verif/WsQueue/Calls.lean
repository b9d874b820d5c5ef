import Verif.WsQueue.Enqueue
/-
The invariant is kept by calls of the user and by what arrives.
-/
namespace Cio.WsQueue

theorem Calm.not_queued {w : World} {st : List Item} {q u : List Kind} (c : Calm w st q u) {k : Kind} (h : (w.jobs k).wbh = none) : k ∉ q :=
  fun hk => c.base.core.busy k hk h

/-- Changes that do not matter. -/
theorem Calm.congr {w w' : World} {st st' : List Item} {q u : List Kind} (c : Calm w st q u) (hst : CalmSt st') (hs : somes st' = somes st)
    (hj : ∀ x ∈ q, w'.jobs x = w.jobs x) (hj' : ∀ x, x ∉ q → x ≠ .close → (w'.jobs x).wbh = (w.jobs x).wbh)
    (h1 : w'.first = w.first) (h2 : w'.last = w.last) (h3 : w'.closedByError = w.closedByError) (h4 : w'.selfClose = w.selfClose)
    (h5 : w'.timer = true → w.timer = true) (h6 : w'.pend = w.pend) (h7 : w'.bsHandler = w.bsHandler) (h8 : w'.tickets = w.tickets)
    (h9 : w'.closes = w.closes) (h10 : completedR w'.log = completedR w.log) (h11 : sentT w'.log = sentT w.log) (h12 : sentK w'.log = sentK w.log)
    (ht : Tok w' q) : Calm w' st' q u := by
  have hqT : qT w' q = qT w q := qT_congr (fun x hx => by rw [hj x hx])
  have hu := c.send.sub
  have hqu : qT w' u = qT w u := qT_congr (fun x hx => by rw [hj x (hu x hx)])
  have core : Core w' q :=
    { first := by rw [h1]; exact c.base.core.first
      last := by rw [h2]; exact c.base.core.last
      linked := c.base.core.linked.congr (fun x hx => by rw [hj x hx])
      nodup := c.base.core.nodup
      busy := fun x hx => by rw [hj x hx]; exact c.base.core.busy x hx
      free := fun x hx hc => by rw [hj' x hx hc]; exact c.base.core.free x hx hc
      ok := fun x hx => (c.base.core.ok x hx).congr (by rw [hj x hx]) (by rw [hj x hx]) h4 (by rw [h3]; exact id)
      timer := fun h => by rw [h4]; exact c.base.core.timer (h5 h) }
  refine { base := ⟨core, ?_, ?_, ?_, ?_, ?_⟩, calm := hst, cbe := by rw [h3]; exact c.cbe, open_ := by rw [h9]; exact c.open_, send := ?_, ord := ?_, c1 := ?_, c2 := ?_, tok := ht }
  · intro t; rw [hqT, completedT, h10, h8]; exact c.base.cnt t
  · exact c.base.ord.congr h11 (by omega)
  · rw [h12]; exact c.base.c1
  · rw [h12, h4]; exact c.base.c2
  · rw [h10, h11]; exact c.base.succ
  · have := c.send
    cases this with
    | idle a b => exact .idle (by rw [h6]; exact a) (by rw [hs]; exact b)
    | flight k u a b d e => exact .flight k _ (by rw [h6]; exact a) (by rw [hs]; exact b) (by rw [h7, hj k List.mem_cons_self]; exact d) (by rw [hj k List.mem_cons_self, h11]; exact e)
    | wait k u a b => exact .wait k _ (by rw [h6]; exact a) (by rw [hs]; exact b)
  · rw [hqu]; exact c.ord.congr h11 (by omega)
  · rw [h12]; exact c.c1
  · rw [h12, h4, h6]; exact c.c2

theorem Calm.refused {w : World} {st : List Item} {q u : List Kind} (c : Calm w st q u) (hub : w.ub = false) : Inv ⟨log w .refused, st⟩ :=
  .inr (.inr ⟨hub, Phase.calm _ q u (c.congr c.calm rfl (fun _ _ => rfl) (fun _ _ _ => rfl) rfl rfl rfl rfl id rfl rfl rfl rfl rfl rfl rfl
    ⟨c.tok.t1, c.tok.t2, c.tok.t3⟩)⟩)

/-- The tokens when a job other than the pong is filled in. -/
theorem Tok.fill {w w' : World} {q : List Kind} {k : Kind} (t : Tok w q) (hk : k ≠ .pong) (hc : k = .close → (w'.jobs .close).handler ≠ .null)
    (hj : ∀ x, x ≠ k → w'.jobs x = w.jobs x) (hr : w'.reading = w.reading) (ht : w'.turn = w.turn) : Tok w' (q ++ [k]) := by
  have hp : w'.jobs .pong = w.jobs .pong := hj _ (fun h => hk h.symm)
  have hm : .pong ∈ q ++ [k] → .pong ∈ q := by
    intro h
    rcases List.mem_append.mp h with h | h
    · exact h
    · simp at h; exact absurd h.symm hk
  refine ⟨?_, ?_, ?_⟩
  · rw [hr, ht]; exact t.t1
  · rw [hr, ht, hp]; intro h; exact t.t2 (hm h)
  · intro h1 h2
    by_cases hkc : k = .close
    · exact absurd h2 (hc hkc)
    · rw [hj _ (fun h => hkc h.symm)] at h2
      have h1 : .close ∈ q := by
        rcases List.mem_append.mp h1 with h | h
        · exact h
        · simp at h; exact absurd h.symm hkc
      have := t.t3 h1 h2
      rw [hr, ht, hp]
      exact ⟨this.1, this.2.1, fun h => this.2.2 ⟨hm h.1, h.2⟩⟩

theorem isSome_false {α} {o : Option α} (h : ¬ o.isSome = true) : o = none := by cases o <;> simp_all

/-- Filling in a message, ping or pong of the user. -/
theorem fill_user {w w' : World} {st : List Item} {q u : List Kind} {k : Kind} (c : Calm w st q u) (hub : w'.ub = false) (hk : (w.jobs k).wbh = none)
    (hkc : k ≠ .close) (hj : ∀ x, x ≠ k → w'.jobs x = w.jobs x) (hn : (w'.jobs k).next = (w.jobs k).next) (hb : (w'.jobs k).wbh ≠ none)
    (hh : (w'.jobs k).handler = .user w.tickets) (hs : (w'.jobs k).streamHandler = .messageWritten)
    (h1 : w'.first = w.first) (h2 : w'.last = w.last) (h3 : w'.closedByError = w.closedByError) (h4 : w'.selfClose = w.selfClose)
    (h5 : w'.timer = w.timer) (h6 : w'.pend = w.pend) (h7 : w'.bsHandler = w.bsHandler) (h8 : w'.tickets = w.tickets + 1)
    (h9 : w'.closes = w.closes) (h10 : completedR w'.log = completedR w.log) (h11 : sentT w'.log = sentT w.log) (h12 : sentK w'.log = sentK w.log)
    (h13 : w'.reading = w.reading) (h14 : w'.turn = w.turn) : Filled w w' q k where
  ub := hub
  new := c.not_queued hk
  jobs := hj
  next := hn
  first := h1
  last := h2
  busy := hb
  ok := by
    cases k
    · exact ⟨⟨_, hh⟩, hs⟩
    · exact ⟨⟨_, hh⟩, hs⟩
    · exact ⟨by rw [hh]; simp, hs⟩
    · exact absurd rfl hkc
  timer := by rw [h5, h4]; exact c.base.core.timer
  sc := .inl h4
  sc' := by rw [h4]; exact id
  cbe := by rw [h3]; exact c.cbe
  open_ := by rw [h9]; exact c.open_
  pend := h6
  bs := h7
  sT := h11
  sK := h12
  cT := h10
  ticket := .inr ⟨hh, h8⟩
  notyet := fun h => absurd h hkc
  tok := by
    by_cases hkp : k = .pong
    · subst hkp
      have hnp := c.not_queued hk
      refine ⟨by rw [h13, h14]; exact c.tok.t1, ?_, ?_⟩
      · intro _ h; rw [hh] at h; cases h
      · intro ha hb'
        have ha : .close ∈ q := by
          rcases List.mem_append.mp ha with h | h
          · exact h
          · simp at h
        rw [hj _ (by simp)] at hb'
        have := c.tok.t3 ha hb'
        rw [h13, h14]
        exact ⟨this.1, this.2.1, fun h => by rw [hh] at h; cases h.2⟩
    · exact c.tok.fill hkp (fun h => absurd h hkc) hj h13 h14

theorem doCall_inv {w : World} {st : List Item} {q u : List Kind} (c : Calm w st q u) (hub : w.ub = false) (call : Call) (tr : Outcome)
    (ha : match call with
      | .read => w.turn = true
      | .cont _ => (w.jobs .message).wbh = none
      | .close _ _ => w.selfClose = false
      | _ => True) : Inv (doCall w call tr st) := by
  cases call with
  | first frameLength payload lastFrame binary =>
    simp only [doCall]
    by_cases h : (w.jobs .message).wbh.isSome = true
    · rw [if_pos h]; exact c.refused hub
    · rw [if_neg h]
      refine enqueue_inv c (u := u) (q := q) ?_ _ _
      refine fill_user c hub (isSome_false h) (by simp) ?_ ?_ ?_ ?_ ?_ rfl rfl rfl rfl rfl rfl rfl rfl rfl rfl rfl rfl rfl rfl
      · intro x hx; simp [log, setJob, hx]
      all_goals simp [log, setJob]
  | cont payload =>
    simp only [doCall]
    refine enqueue_inv c (u := u) (q := q) ?_ _ _
    refine fill_user c hub ha (by simp) ?_ ?_ ?_ ?_ ?_ rfl rfl rfl rfl rfl rfl rfl rfl rfl rfl rfl rfl rfl rfl
    · intro x hx; simp [log, setJob, hx]
    all_goals simp [log, setJob]
  | ping payload =>
    simp only [doCall]
    by_cases h0 : payload.sum > 125
    · rw [if_pos h0]; exact c.refused hub
    · rw [if_neg h0]
      by_cases h : (w.jobs .ping).wbh.isSome = true
      · rw [if_pos h]; exact c.refused hub
      · rw [if_neg h]
        refine enqueue_inv c (u := u) (q := q) ?_ _ _
        refine fill_user c hub (isSome_false h) (by simp) ?_ ?_ ?_ ?_ ?_ rfl rfl rfl rfl rfl rfl rfl rfl rfl rfl rfl rfl rfl rfl
        · intro x hx; simp [log, setJob, hx]
        all_goals simp [log, setJob]
  | pong payload =>
    simp only [doCall]
    by_cases h0 : payload.sum > 125
    · rw [if_pos h0]; exact c.refused hub
    · rw [if_neg h0]
      by_cases h : (w.jobs .pong).wbh.isSome = true
      · rw [if_pos h]; exact c.refused hub
      · rw [if_neg h]
        refine enqueue_inv c (u := u) (q := q) ?_ _ _
        refine fill_user c hub (isSome_false h) (by simp) ?_ ?_ ?_ ?_ ?_ rfl rfl rfl rfl rfl rfl rfl rfl rfl rfl rfl rfl rfl rfl
        · intro x hx; simp [log, setJob, hx]
        all_goals simp [log, setJob]
  | close reasonLength timerOk =>
    simp only [doCall]
    have ha : w.selfClose = false := ha
    by_cases h : (w.jobs .close).wbh.isSome = true
    · rw [if_pos h]; exact c.refused hub
    · rw [if_neg h]
      have hq := c.not_queued (isSome_false h)
      by_cases ht : timerOk = false
      · rw [if_pos ht]
        refine .inr (.inr ⟨hub, Phase.calm _ q u (c.congr c.calm rfl ?_ ?_ rfl rfl rfl rfl id rfl rfl rfl rfl rfl rfl rfl ?_)⟩)
        · intro x hx
          have : x ≠ .close := fun h => hq (h ▸ hx)
          simp [log, prepareClose, setJob, this]
        · intro x _ hx
          simp [log, prepareClose, setJob, hx]
        · refine ⟨c.tok.t1, ?_, fun h => absurd h hq⟩
          intro h1 h2
          refine c.tok.t2 h1 ?_
          rw [← h2]
          simp [log, prepareClose, setJob]
      · rw [if_neg ht]
        refine enqueue_inv c (k := .close) (u := u) (q := q) ?_ _ _
        refine { ub := hub, new := hq, jobs := ?_, next := ?_, first := rfl, last := rfl, busy := ?_, ok := ?_, timer := fun _ => rfl, sc := .inr hq,
                 sc' := fun _ => ha, cbe := c.cbe, open_ := c.open_, pend := rfl, bs := rfl, sT := rfl, sK := rfl, cT := rfl, ticket := .inr ⟨?_, rfl⟩,
                 notyet := ?_, tok := ?_ }
        · intro x hx; simp [log, prepareClose, setJob, hx]
        · simp [log, prepareClose, setJob]
        · simp [log, prepareClose, setJob]
        · left
          exact ⟨⟨w.tickets, by simp [log, prepareClose, setJob]⟩, by simp [log, prepareClose, setJob], rfl⟩
        · simp [log, prepareClose, setJob]
        · intro _ hm
          have := (c.c2 ha hm).2
          exact hq (List.mem_of_head? this)
        · refine c.tok.fill (by simp) ?_ ?_ rfl rfl
          · intro _; simp [log, prepareClose, setJob]
          · intro x hx; simp [log, prepareClose, setJob, hx]
  | read =>
    have ha : w.turn = true := ha
    simp only [doCall]
    refine .inr (.inr ⟨hub, Phase.calm _ q u (c.congr (CalmSt.cons rfl c.calm) (somes_cons_none rfl) (fun _ _ => rfl) (fun _ _ _ => rfl)
      rfl rfl rfl rfl id rfl rfl rfl rfl rfl rfl rfl ?_)⟩)
    refine ⟨fun _ => rfl, ?_, ?_⟩
    · intro h1 h2
      have := (c.tok.t2 h1 h2).2
      rw [ha] at this; cases this
    · intro h1 h2
      have := (c.tok.t3 h1 h2).2.1
      rw [ha] at this; cases this

theorem arrive_inv {w : World} {st : List Item} {q u : List Kind} (c : Calm w st q u) (hub : w.ub = false) (hr : w.reading = true) (a : Act) (tr : Outcome)
    (ha : match a with | .gotPing _ => (w.jobs .pong).wbh = none | _ => True) : Inv (arrive w a tr st) := by
  have hturn := c.tok.t1 hr
  have hsame : Inv ⟨w, st⟩ := .inr (.inr ⟨hub, Phase.calm _ q u c⟩)
  have hnn : .close ∈ q → (w.jobs .close).handler ≠ .null := by
    intro h1 h2
    have := (c.tok.t3 h1 h2).1
    rw [hr] at this; cases this
  have hcl : w.selfClose = false → .close ∉ q := by
    intro h1 h2
    rcases c.base.core.ok .close h2 with h | h | h
    · rw [h.2.2] at h1; cases h1
    · exact hnn h2 h.1
    · exact hnn h2 h.1
  have hnk : w.selfClose = false → .close ∉ sentK w.log := by
    intro h1 h2
    exact hcl h1 (List.mem_of_head? (c.c2 h1 h2).2)
  cases a with
  | call _ => exact hsame
  | ret => exact hsame
  | written _ => exact hsame
  | timer => exact hsame
  | gotPong => exact hsame
  | gotData =>
    refine .inr (.inr ⟨hub, Phase.calm _ q u (c.congr (CalmSt.cons rfl c.calm) (somes_cons_none rfl) (fun _ _ => rfl) (fun _ _ _ => rfl)
      rfl rfl rfl rfl id rfl rfl rfl rfl rfl rfl rfl ?_)⟩)
    refine ⟨fun h => (by cases h), ?_, ?_⟩
    · intro h1 h2
      have := (c.tok.t2 h1 h2).1
      rw [hr] at this; cases this
    · intro h1 h2
      exact absurd h2 (hnn h1)
  | gotPing length =>
    have ha : (w.jobs .pong).wbh = none := ha
    have hq := c.not_queued ha
    simp only [arrive]
    refine enqueue_inv c (k := .pong) (u := u) (q := q) ?_ _ _
    refine { ub := hub, new := hq, jobs := ?_, next := ?_, first := rfl, last := rfl, busy := ?_, ok := ?_, timer := c.base.core.timer, sc := .inl rfl,
             sc' := id, cbe := c.cbe, open_ := c.open_, pend := rfl, bs := rfl, sT := rfl, sK := rfl, cT := rfl, ticket := .inl ⟨?_, rfl⟩,
             notyet := fun h => (by cases h), tok := ?_ }
    · intro x hx; simp [setJob, hx]
    · simp [setJob]
    · simp [setJob]
    · exact ⟨by simp [setJob], by simp [setJob]⟩
    · simp [setJob, ticketOf]
    · refine ⟨fun h => (by cases h), fun _ _ => ⟨rfl, hturn⟩, ?_⟩
      intro h1 h2
      have h1 : .close ∈ q := by
        rcases List.mem_append.mp h1 with h | h
        · exact h
        · simp at h
      exact absurd (by simpa [setJob] using h2) (hnn h1)
  | gotClose reasonLength =>
    simp only [arrive]
    by_cases hsc : w.selfClose = true
    · rw [if_pos hsc]
      refine .inr (.inr ⟨hub, Phase.closing st q ?_ c.open_ c.calm rfl ?_⟩)
      · exact c.base.congr rfl rfl rfl rfl id (fun h => (by cases h)) rfl rfl rfl rfl
      · intro h; rw [show w.selfClose = false from h] at hsc; cases hsc
    · have hsc : w.selfClose = false := by simpa using hsc
      rw [if_neg (by rw [hsc]; simp)]
      have hq := hcl hsc
      refine enqueue_inv c (k := .close) (u := u) (q := q) ?_ _ _
      refine { ub := hub, new := hq, jobs := ?_, next := ?_, first := rfl, last := rfl, busy := ?_, ok := ?_, timer := c.base.core.timer, sc := .inl rfl,
               sc' := id, cbe := c.cbe, open_ := c.open_, pend := rfl, bs := rfl, sT := rfl, sK := rfl, cT := rfl, ticket := .inl ⟨?_, rfl⟩,
               notyet := fun _ => hnk hsc, tok := ?_ }
      · intro x hx; simp [prepareClose, setJob, hx]
      · simp [prepareClose, setJob]
      · simp [prepareClose, setJob]
      · refine .inr (.inl ⟨by simp [prepareClose, setJob], by simp [prepareClose, setJob], hsc⟩)
      · simp [prepareClose, setJob, ticketOf]
      · have hp : .pong ∈ q ++ [.close] → (w.jobs .pong).handler ≠ .pongWritten := by
          intro h1 h2
          have h1 : .pong ∈ q := by
            rcases List.mem_append.mp h1 with h | h
            · exact h
            · simp at h
          have := (c.tok.t2 h1 h2).1
          rw [hr] at this; cases this
        refine ⟨fun h => (by cases h), ?_, ?_⟩
        · intro h1 h2
          exact absurd (by simpa [prepareClose, setJob] using h2) (hp h1)
        · intro _ _
          refine ⟨rfl, hturn, ?_⟩
          rintro ⟨h1, h2⟩
          exact absurd (by simpa [prepareClose, setJob] using h2) (hp h1)
  | fail =>
    simp only [arrive]
    refine handleError_inv (q := q) (w := { w with reading := false }) ?_ hub c.cbe c.open_ c.calm hnk ?_
    · exact c.base.congr rfl rfl rfl rfl id id rfl rfl rfl rfl
    · intro h1 k hk
      refine ⟨?_, rfl⟩
      rintro rfl
      have := c.send
      cases this with
      | idle _ b => rw [b] at hk; cases hk
      | flight _ _ _ b => rw [b] at hk; cases hk
      | wait k' u' _ b =>
        rw [b] at hk
        simp at hk
        subst hk
        exact hcl h1 List.mem_cons_self

end Cio.WsQueue
