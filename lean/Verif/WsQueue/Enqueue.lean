import Verif.WsQueue.Steps
/-
The invariant is kept when a job is queued.
-/
namespace Cio.WsQueue

/-- `w` is `w0` with the job `k`, which is not queued, filled in. -/
structure Filled (w0 w : World) (q : List Kind) (k : Kind) : Prop where
  ub : w.ub = false
  new : k ∉ q
  jobs : ∀ x, x ≠ k → w.jobs x = w0.jobs x
  next : (w.jobs k).next = (w0.jobs k).next
  first : w.first = w0.first
  last : w.last = w0.last
  busy : (w.jobs k).wbh ≠ none
  ok : Ok w k
  timer : w.timer = true → w.selfClose = true
  sc : w.selfClose = w0.selfClose ∨ .close ∉ q
  sc' : w.selfClose = false → w0.selfClose = false
  cbe : w.closedByError = false
  open_ : w.closes = 0
  pend : w.pend = w0.pend
  bs : w.bsHandler = w0.bsHandler
  sT : sentT w.log = sentT w0.log
  sK : sentK w.log = sentK w0.log
  cT : completedR w.log = completedR w0.log
  ticket : (ticketOf (w.jobs k).handler = [] ∧ w.tickets = w0.tickets) ∨ ((w.jobs k).handler = .user w0.tickets ∧ w.tickets = w0.tickets + 1)
  notyet : k = .close → .close ∉ sentK w0.log
  tok : Tok w (q ++ [k])

theorem Sending.sub {w : World} {st : List Item} {q u : List Kind} (s : Sending w st q u) : ∀ x ∈ u, x ∈ q := by
  cases s with
  | idle => intro x hx; exact hx
  | flight k u => intro x hx; exact List.mem_cons_of_mem _ hx
  | wait k u => intro x hx; exact hx

theorem Filled.qT_old {w0 w : World} {q l : List Kind} {k : Kind} (f : Filled w0 w q k) (h : ∀ x ∈ l, x ∈ q) : qT w l = qT w0 l :=
  qT_congr (fun x hx => by rw [f.jobs x (fun e => f.new (e ▸ h x hx))])

theorem Filled.ord {w0 w : World} {st : List Item} {q u : List Kind} {k : Kind} (c : Calm w0 st q u) (f : Filled w0 w q k) : Ord w (qT w (u ++ [k])) := by
  have hu := c.send.sub
  have e : qT w (u ++ [k]) = qT w0 u ++ ticketOf (w.jobs k).handler := by rw [qT_append, f.qT_old hu]; simp [qT]
  rw [e]
  unfold Ord
  rw [f.sT]
  have h := c.ord
  rcases f.ticket with ⟨h1, h2⟩ | ⟨h1, h2⟩
  · rw [h1, h2, List.append_nil]; exact h
  · rw [h1, h2, ← List.append_assoc]
    refine ⟨?_, ?_⟩
    · rw [List.pairwise_append]
      refine ⟨h.1, by simp [ticketOf], ?_⟩
      intro a ha b hb
      simp [ticketOf] at hb
      subst hb
      exact h.2 a ha
    · intro t ht
      rcases List.mem_append.mp ht with ht | ht
      · have := h.2 t ht; omega
      · simp [ticketOf] at ht; omega

theorem Filled.cnt {w0 w : World} {st : List Item} {q u : List Kind} {k : Kind} (c : Calm w0 st q u) (f : Filled w0 w q k) : Cnt w (q ++ [k]) [] := by
  intro t
  have e : qT w (q ++ [k]) = qT w0 q ++ ticketOf (w.jobs k).handler := by rw [qT_append, f.qT_old (fun _ h => h)]; simp [qT]
  have := c.base.cnt t
  rw [e, completedT, f.cT, List.count_append]
  change _ + _ + _ = _ at this
  rw [completedT] at this
  rcases f.ticket with ⟨h1, h2⟩ | ⟨h1, h2⟩
  · rw [h1, h2]; simp at this ⊢; omega
  · rw [h1, h2]
    simp only [ticketOf, List.count_cons, List.count_nil, beq_iff_eq, Nat.zero_add, Nat.add_zero] at this ⊢
    by_cases ht : t < w0.tickets
    · have : ¬ w0.tickets = t := by omega
      have h3 : t < w0.tickets + 1 := by omega
      simp_all
    · by_cases h : w0.tickets = t
      · have h3 : t < w0.tickets + 1 := by omega
        simp_all
      · have h3 : ¬ t < w0.tickets + 1 := by omega
        simp_all

theorem Filled.c1 {w0 w : World} {st : List Item} {q u : List Kind} {k : Kind} (c : Calm w0 st q u) (f : Filled w0 w q k) :
    (sentK w.log).count .close + (u ++ [k]).count .close ≤ 1 := by
  rw [f.sK, List.count_append]
  have h := c.c1
  by_cases hk : k = .close
  · have h1 : (sentK w0.log).count .close = 0 := List.count_eq_zero.mpr (f.notyet hk)
    have h2 : u.count .close = 0 := List.count_eq_zero.mpr (fun h => f.new (hk ▸ c.send.sub _ h))
    rw [h1, h2, hk]
    simp
  · have h3 : [k].count Kind.close = 0 := by
      rw [List.count_cons]
      simp [hk]
    omega

/-- `enqueue_job` keeps the invariant. -/
theorem enqueue_inv {w0 w : World} {st : List Item} {q u : List Kind} {k : Kind} (c : Calm w0 st q u) (f : Filled w0 w q k) (len : Nat) (tr : Outcome) :
    Inv (enqueue w k len tr st).1 := by
  have hord := f.ord c
  have hcnt := f.cnt c
  have hc1 := f.c1 c
  have hc2 : w.selfClose = false → .close ∈ sentK w.log → w0.pend = true ∧ q.head? = some .close := by
    intro h1 h2
    rw [f.sK] at h2
    exact c.c2 (f.sc' h1) h2
  have hb2 : w.selfClose = false → .close ∈ sentK w.log → (sentK w.log).head? = some .close := by
    intro h1 h2
    rw [f.sK] at h2 ⊢
    exact c.base.c2 (f.sc' h1) h2
  unfold enqueue
  rw [f.first, c.base.core.first]
  cases hq : q with
  | nil =>
    subst hq
    have hs : somes st = [] ∧ w0.pend = false ∧ u = [] := by
      have h := c.send
      cases h with
      | idle h1 h2 => exact ⟨h2, h1, rfl⟩
    obtain ⟨hs1, hs2, rfl⟩ := hs
    simp only [List.head?_nil]
    have hcore : Core { w with first := some k, last := some k } [k] :=
      c.base.core.single f.jobs rfl rfl f.busy (f.ok.congr rfl rfl rfl id) f.timer
    have r : Ready { w with first := some k, last := some k } st k [] :=
      { base := ⟨hcore, hcnt, hord.nil, by rw [f.sK]; exact c.base.c1, hb2, (by rw [f.cT, f.sT]; exact c.base.succ)⟩, ub := f.ub, calm := c.calm, nosome := hs1, cbe := f.cbe, open_ := f.open_,
        pend := by show w.pend = false; rw [f.pend]; exact hs2
        ord := hord, c1 := hc1
        c2 := by
          intro h1 h2
          have h3 := (hc2 h1 h2).1
          rw [hs2] at h3
          cases h3
        tok := ⟨f.tok.t1, f.tok.t2, f.tok.t3⟩ }
    have hi := sendFrame_inv r len tr
    generalize sendFrame { w with first := some k, last := some k } k len tr st = p at hi
    obtain ⟨s, ok⟩ := p
    cases ok
    · simpa using hi
    · simpa using hi
  | cons a r =>
    have hqne : q ≠ [] := by rw [hq]; simp
    obtain ⟨l, hl⟩ : ∃ l, q.getLast? = some l := by
      rw [hq]
      exact ⟨_, List.getLast?_eq_some_getLast (by simp)⟩
    simp only [List.head?_cons]
    rw [f.last, c.base.core.last hqne, hl]
    simp only
    have hlk : l ≠ k := fun h => f.new (h ▸ List.mem_of_getLast? hl)
    refine .inr (.inr ⟨f.ub, ?_⟩)
    have hh : ∀ x, ((setJob w l { w.jobs l with next := some k }).jobs x).handler = (w.jobs x).handler := by
      intro x; simp only [setJob_jobs]; by_cases h : x = l <;> simp [h]
    have hsh : ∀ x, ((setJob w l { w.jobs l with next := some k }).jobs x).streamHandler = (w.jobs x).streamHandler := by
      intro x; simp only [setJob_jobs]; by_cases h : x = l <;> simp [h]
    have hw : ∀ x, ((setJob w l { w.jobs l with next := some k }).jobs x).wbh = (w.jobs x).wbh := by
      intro x; simp only [setJob_jobs]; by_cases h : x = l <;> simp [h]
    have hqT : ∀ m, qT { setJob w l { w.jobs l with next := some k } with last := some k } m = qT w m := fun m => qT_congr (fun x _ => hh x)
    have hcore : Core { setJob w l { w.jobs l with next := some k } with last := some k } (q ++ [k]) := by
      refine c.base.core.snoc hl f.new ?_ ?_ ?_ ?_ ?_ f.first rfl ?_ ?_ f.timer f.sc ?_
      · intro x hx; rw [← f.jobs x hx]; exact hw x
      · intro x hx; rw [← f.jobs x hx]; exact hh x
      · intro x hx; rw [← f.jobs x hx]; exact hsh x
      · intro x hx
        simp only [setJob_jobs]
        rw [if_neg hx]
        by_cases hxk : x = k
        · subst hxk; exact f.next
        · rw [f.jobs x hxk]
      · simp
      · show (_ : Job).wbh ≠ none
        rw [hw]; exact f.busy
      · exact f.ok.congr (hh k) (hsh k) rfl id
      · intro h; rw [c.cbe] at h; cases h
    refine Phase.calm _ (q ++ [k]) (u ++ [k]) ?_
    refine { base := ⟨hcore, ?_, ?_, ?_, ?_, (by show ∀ t, _ ∈ completedR w.log → t ∈ sentT w.log; rw [f.cT, f.sT]; exact c.base.succ)⟩, calm := c.calm, cbe := f.cbe, open_ := f.open_, send := ?_, ord := ?_, c1 := hc1, c2 := ?_, tok := ?_ }
    · intro t; rw [hqT]; exact hcnt t
    · exact (hord.nil).congr rfl (Nat.le_refl _)
    · show (sentK w.log).count .close ≤ 1; omega
    · exact hb2
    · have hsend := c.send
      rw [hq] at hsend ⊢
      cases hsend with
      | flight _ _ h1 h2 h3 h4 =>
        refine .flight a _ ?_ h2 ?_ ?_
        · show w.pend = true; rw [f.pend]; exact h1
        · show w.bsHandler = _
          rw [f.bs, h3]
          show _ = ((setJob w l { w.jobs l with next := some k }).jobs a).streamHandler
          rw [hsh, f.jobs a (fun h => f.new (by rw [hq, h]; exact List.mem_cons_self))]
        · show ∀ t ∈ ticketOf ((setJob w l { w.jobs l with next := some k }).jobs a).handler, t ∈ sentT w.log
          rw [hh, f.jobs a (fun h => f.new (by rw [hq, h]; exact List.mem_cons_self)), f.sT]
          exact h4
      | wait _ _ h1 h2 =>
        exact .wait a _ (by show w.pend = false; rw [f.pend]; exact h1) h2
    · rw [hqT]; exact hord.congr rfl (Nat.le_refl _)
    · intro h1 h2
      have := hc2 h1 h2
      refine ⟨by show w.pend = true; rw [f.pend]; exact this.1, ?_⟩
      rw [hq] at this ⊢
      exact this.2
    · refine ⟨f.tok.t1, ?_, ?_⟩
      · intro h1 h2; exact f.tok.t2 h1 ((hh _).symm.trans h2)
      · intro h1 h2
        have := f.tok.t3 h1 ((hh _).symm.trans h2)
        exact ⟨this.1, this.2.1, fun h => this.2.2 ⟨h.1, (hh _).symm.trans h.2⟩⟩

end Cio.WsQueue
