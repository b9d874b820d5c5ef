import Verif.PingPong.Inv
/-
C114: every step of the ping-pong client keeps the invariant.
-/
namespace Cio.PingPong
open BufferedRead (UAct Handler Job World Call)
open StreamSocket (Sys Ev Write step Allowed follow settle answer)
open BufferedWrite (FirstEndsEarly flat)
open Echo (ToldSuccess elem follow_eq settle_eq)

variable {hello : List UInt8} {max : Nat}

theorem Inv.cur_none {p : Phase} {s : Sys} (h : Inv hello max p s) (hp : p ≠ .writing) : s.cur = none := by
  cases hx : s.cur with
  | none => rfl
  | some x => exact absurd (h.cur.1 (by rw [hx]; rfl)) hp

theorem Inv.open' {p : Phase} {s : Sys} (h : Inv hello max p s) (hp : p ≠ .stopped) : s.br.closed = false := by
  cases hx : s.br.closed with
  | false => rfl
  | true => exact absurd (h.closed hx) hp

theorem Inv.notWaiting {p : Phase} {s : Sys} (h : Inv hello max p s) (hp : p ≠ .reading) : s.br.waiting = false := by
  cases hx : s.br.waiting with
  | false => rfl
  | true => exact absurd (h.wait hx) hp

theorem told_or {x : Write} {f : Bool} : (ToldSuccess x ∧ afterWrite f x = .toConsume) ∨ (¬ ToldSuccess x ∧ (afterWrite f x = .toClose ∨ afterWrite f x = .stopped)) := by
  unfold afterWrite
  cases hl : x.world.calls.getLast? with
  | none =>
    refine Or.inr ⟨fun ⟨ch, hch⟩ => by (rw [hl] at hch; cases hch), ?_⟩
    cases f
    · exact Or.inr rfl
    · exact Or.inl rfl
  | some z =>
    obtain ⟨e, ch⟩ := z
    dsimp only
    by_cases he : e = SUCCESS
    · subst he
      exact Or.inl ⟨⟨ch, hl⟩, by rw [if_pos rfl]⟩
    · refine Or.inr ⟨fun ⟨ch', hch⟩ => ?_, by rw [if_neg he]; exact Or.inl rfl⟩
      rw [hl] at hch
      injection hch with hch
      injection hch with h1 _
      exact he h1

/-- What a `write_some`, or a socket that becomes writable, does to the client. -/
theorem write_goes_on {p p' : Phase} {s s' : Sys} {x : Write} (h : Inv hello max p s) (hx : s.cur = some x) (hbr : s'.br = s.br)
    (hy : ∃ y : Write, y.chain = x.chain ∧ ((s'.cur = none ∧ s'.done = s.done ++ [y]) ∨ (s'.cur = some y ∧ s'.done = s.done)))
    (hp : (if s'.done.length = s.done.length then some p else match s'.done.getLast? with | some x => some (afterWrite (decide (s'.done.length = 1)) x) | none => none) = some p') :
    Inv hello max p' s' := by
  have hpw : p = .writing := h.cur.1 (by rw [hx]; rfl)
  obtain ⟨y, hy1, hy2⟩ := hy
  have hych : y.chain = [⟨elem, now hello s.br⟩] := by rw [hy1]; exact h.writing hpw x hx
  have hcl := h.open' (p := p) (by rw [hpw]; intro q; cases q)
  have hwt := h.notWaiting (p := p) (by rw [hpw]; intro q; cases q)
  have hjob : s.br.job = none := by have := h.job; rw [hpw] at this; exact this
  have hcount := h.count (by rw [hpw]; intro q; cases q)
  have hmore := h.more (by rw [hpw]; intro q; cases q)
  have henough := h.enough (Or.inr (Or.inl hpw))
  obtain ⟨good, rest, g1, g2, g4⟩ := h.hist
  subst hpw
  obtain ⟨g4, g5⟩ : rest = [] ∧ good.flatMap Write.asked = before hello s.br := g4
  subst g4
  rw [List.append_nil] at g1
  rcases hy2 with ⟨c1, c2⟩ | ⟨c1, c2⟩
  · rw [if_neg (by rw [c2]; simp), c2, List.getLast?_concat] at hp
    injection hp with hp
    generalize decide ((s.done ++ [y]).length = 1) = first at hp
    have hd : s'.done = good ++ [y] := by rw [c2, g1]
    rcases told_or (x := y) (f := first) with ⟨t1, t2⟩ | ⟨t1, t2⟩
    · rw [t2] at hp
      subst hp
      refine { misuse := by rw [hbr]; exact h.misuse, shall := by rw [hbr]; exact h.shall, closed := by rw [hbr, hcl]; (intro q; cases q), cur := by rw [c1]; exact ⟨(fun q => by cases q), (fun q => by cases q)⟩, job := by rw [hbr]; exact hjob, wait := by rw [hbr, hwt]; (intro q; cases q), start := (fun q => by cases q), fresh := by rw [hbr]; exact h.fresh, toWrite := (fun d q => by cases q), writing := (fun q => by cases q), enough := fun _ => by rw [hbr]; exact henough, hist := ?_, count := fun _ => by rw [hbr]; exact hcount, more := fun _ => by rw [hbr]; exact hmore, most := by rw [hbr]; exact h.most, errs := by rw [hbr]; exact h.errs, nums := by rw [hbr]; exact h.nums, units := by rw [hbr]; exact h.units, why := (fun q => by cases q) }
      exact ⟨good, [y], hd, g2, by rw [hbr]; exact g5, y, rfl, t1, by rw [hbr]; exact hych⟩
    · rcases t2 with t2 | t2
      · rw [t2] at hp
        subst hp
        refine { misuse := by rw [hbr]; exact h.misuse, shall := by rw [hbr]; exact h.shall, closed := by rw [hbr, hcl]; (intro q; cases q), cur := by rw [c1]; exact ⟨(fun q => by cases q), (fun q => by cases q)⟩, job := by rw [hbr]; exact hjob, wait := by rw [hbr, hwt]; (intro q; cases q), start := (fun q => by cases q), fresh := by rw [hbr]; exact h.fresh, toWrite := (fun d q => by cases q), writing := (fun q => by cases q), enough := (fun q => by rcases q with ⟨d, q⟩ | q | q <;> cases q), hist := ?_, count := fun _ => by rw [hbr]; exact hcount, more := fun _ => by rw [hbr]; exact hmore, most := by rw [hbr]; exact h.most, errs := by rw [hbr]; exact h.errs, nums := by rw [hbr]; exact h.nums, units := by rw [hbr]; exact h.units, why := (fun q => by cases q) }
        exact ⟨good, [y], hd, g2, by rw [hbr]; exact g5, y, rfl, t1, by rw [hbr]; exact hych⟩
      · rw [t2] at hp
        subst hp
        refine { misuse := by rw [hbr]; exact h.misuse, shall := by rw [hbr]; exact h.shall, closed := fun _ => rfl, cur := by rw [c1]; exact ⟨(fun q => by cases q), (fun q => by cases q)⟩, job := by rw [hbr]; exact hjob, wait := by rw [hbr, hwt]; (intro q; cases q), start := (fun q => by cases q), fresh := by rw [hbr]; exact h.fresh, toWrite := (fun d q => by cases q), writing := (fun q => by cases q), enough := (fun q => by rcases q with ⟨d, q⟩ | q | q <;> cases q), hist := ?_, count := fun q => absurd rfl q, more := fun q => absurd rfl q, most := by rw [hbr]; exact h.most, errs := by rw [hbr]; exact h.errs, nums := by rw [hbr]; exact h.nums, units := by rw [hbr]; exact h.units, why := fun _ => Or.inr ⟨y, by rw [c2]; exact List.mem_append_right _ (List.mem_singleton_self y), t1⟩ }
        exact ⟨good, [y], hd, g2, Or.inr ⟨by rw [hbr]; exact g5, y, rfl, t1, by rw [hbr]; exact hych⟩⟩
  · rw [if_pos (by rw [c2])] at hp
    injection hp with hp
    subst hp
    refine { misuse := by rw [hbr]; exact h.misuse, shall := by rw [hbr]; exact h.shall, closed := by rw [hbr, hcl]; (intro q; cases q), cur := by rw [c1]; exact ⟨fun _ => rfl, fun _ => rfl⟩, job := by rw [hbr]; exact h.job, wait := by rw [hbr, hwt]; (intro q; cases q), start := (fun q => by cases q), fresh := by rw [hbr]; exact h.fresh, toWrite := (fun d q => by cases q), writing := fun _ z hz => ?_, enough := fun _ => by rw [hbr]; exact henough, hist := ⟨good, [], by rw [c2, g1, List.append_nil], g2, rfl, by rw [hbr]; exact g5⟩, count := fun _ => by rw [hbr]; exact hcount, more := fun _ => by rw [hbr]; exact hmore, most := by rw [hbr]; exact h.most, errs := by rw [hbr]; exact h.errs, nums := by rw [hbr]; exact h.nums, units := by rw [hbr]; exact h.units, why := (fun q => by cases q) }
    rw [c1] at hz; injection hz with hz; subst hz; rw [hbr]; exact hych

theorem mem_concat {α : Type} {l : List α} {a x : α} (h : x ∈ l ++ [a]) : x ∈ l ∨ x = a := by
  rcases List.mem_append.1 h with h | h
  · exact Or.inl h
  · exact Or.inr (List.mem_singleton.1 h)

/-- `client_handle_read` has closed the stream. -/
theorem ended_inv {s s' : Sys} {c : Call} (h : Inv hello max .reading s) (hw : s.br.waiting = false) (he : Ended s.br s'.br c) (hcon : c.consumed = s.br.consumed)
    (hk : c.err ≠ SUCCESS ∨ (c.err = SUCCESS ∧ c.num = hello.length ∧ max ≤ pings s.br + 1 ∧ hello.length ≤ s.br.rb.unread.length)) (hc : s'.cur = s.cur) (hd : s'.done = s.done) : Inv hello max .stopped s' := by
  have hcur := h.cur_none (fun q => by cases q)
  have hcount := h.count (fun q => by cases q)
  have hmore := h.more (fun q => by cases q)
  have hpg := pings_concat he.calls
  obtain ⟨good, rest, g1, g2, g4, g5⟩ := h.hist
  have hmem : c ∈ s'.br.calls := by rw [he.calls]; simp
  refine { misuse := by rw [he.misuse]; exact h.misuse, shall := (fun q => by rw [he.closed] at q; cases q), closed := fun _ => rfl, cur := by rw [hc, hcur]; exact ⟨(fun q => by cases q), (fun q => by cases q)⟩, job := by rw [he.job]; rfl, wait := by rw [he.waiting, hw]; (intro q; cases q), start := (fun q => by cases q), fresh := fun q => by (rw [he.calls] at q; exact absurd q (by simp)), toWrite := (fun d q => by cases q), writing := (fun q => by cases q), enough := (fun q => by rcases q with ⟨d, q⟩ | q | q <;> cases q), hist := ⟨good, rest, by rw [hd]; exact g1, g2, Or.inl ⟨g4, by rw [he.consumed]; exact g5, he.closed, ?_⟩⟩, count := fun q => absurd rfl q, more := fun q => absurd rfl q, most := ?_, errs := fun _ _ _ => he.closed, nums := ?_, units := ?_, why := fun _ => Or.inl ⟨he.closed, ?_⟩ }
  · rcases hk with hk | ⟨hk, -, -, hk4⟩
    · exact Or.inl ⟨c, hmem, hk⟩
    · rw [if_pos hk] at hpg
      have hheld0 : held hello.length s.br .reading = 0 := rfl
      refine Or.inr ⟨by omega, ?_, by rw [he.rb]; exact hk4⟩
      rw [hpg, he.consumed, Nat.mul_add, Nat.mul_one]
      omega
  · rcases hk with hk | ⟨hk, -⟩
    · rw [hpg, if_neg hk, Nat.add_zero]; exact h.most
    · rw [hpg, if_pos hk]; omega
  · rw [he.calls]
    intro x hx hs
    rcases mem_concat hx with hx | hx
    · exact h.nums x hx hs
    · subst hx
      rcases hk with hk | ⟨-, hk, -⟩
      · exact absurd hs hk
      · exact hk
  · rw [he.calls]
    intro x hx
    rcases mem_concat hx with hx | hx
    · exact h.units x hx
    · subst hx
      rw [hcon]
      exact ⟨pings s.br, hcount⟩
  · rcases hk with hk | ⟨hk, -, hk2, -⟩
    · exact Or.inl ⟨c, hmem, hk⟩
    · rw [if_pos hk] at hpg; right; omega

/-- `client_handle_read` goes on. -/
theorem toWrite_inv {s s' : Sys} (h : Inv hello max .reading s) (hw : s.br.waiting = false) {c : Call} (hb : s'.br = { s.br with job := none, calls := s.br.calls ++ [c] }) (hok : c.err = SUCCESS)
    (hnum : c.num = hello.length) (hcon : c.consumed = s.br.consumed) (hn : hello.length ≤ s.br.rb.unread.length) (hm : pings s.br + 1 < max) (hc : s'.cur = s.cur) (hd : s'.done = s.done) :
    Inv hello max (.toWrite (s.br.rb.unread.take hello.length)) s' := by
  have hcur := h.cur_none (fun q => by cases q)
  have hcount := h.count (fun q => by cases q)
  have hcalls : s'.br.calls = s.br.calls ++ [c] := by rw [hb]
  have hne : s'.br.calls ≠ [] := by rw [hcalls]; simp
  have hpg := pings_concat hcalls
  rw [if_pos hok] at hpg
  have hcons : s'.br.consumed = s.br.consumed := by rw [hb]
  obtain ⟨good, rest, g1, g2, g4, g5⟩ := h.hist
  refine { misuse := by rw [hb]; exact h.misuse, shall := by rw [hb]; exact h.shall, closed := by rw [hb]; (intro q; have := h.closed q; cases this), cur := by rw [hc, hcur]; exact ⟨(fun q => by cases q), (fun q => by cases q)⟩, job := by rw [hb]; rfl, wait := by rw [hb]; (intro q; have q : s.br.waiting = true := q; rw [hw] at q; cases q), start := (fun q => by cases q), fresh := fun q => absurd q hne, toWrite := ?_, writing := (fun q => by cases q), enough := fun _ _ => by rw [hb]; exact hn, hist := ⟨good, rest, by rw [hd]; exact g1, g2, g4, ?_⟩, count := ?_, more := fun _ => by rw [hpg]; exact Or.inr hm, most := by rw [hpg]; exact Or.inr (by omega), errs := ?_, nums := ?_, units := ?_, why := (fun q => by cases q) }
  · intro d hd
    injection hd with hd
    exact ⟨hne, by rw [hb]; exact hd.symm⟩
  · unfold before; rw [if_neg hne, hcons]; exact g5
  · intro _
    have hheld : held hello.length s'.br (.toWrite (s.br.rb.unread.take hello.length)) = hello.length := by
      show (if s'.br.calls = [] then 0 else hello.length) = _
      rw [if_neg hne]
    have hheld0 : held hello.length s.br .reading = 0 := rfl
    rw [hheld, hcons, hpg, Nat.mul_add, Nat.mul_one]
    omega
  · rw [hcalls]
    intro x hx he
    rcases mem_concat hx with hx | hx
    · rw [hb]; exact h.errs x hx he
    · subst hx; exact absurd hok he
  · rw [hcalls]
    intro x hx he
    rcases mem_concat hx with hx | hx
    · exact h.nums x hx he
    · subst hx; exact hnum
  · rw [hcalls]
    intro x hx
    rcases mem_concat hx with hx | hx
    · exact h.units x hx
    · subst hx
      rw [hcon]
      exact ⟨pings s.br, hcount⟩

theorem read_inv {sz : Nat} {s s' : Sys} {w : World} (h : Inv hello max .toRead s) (hi : BufferedRead.Inv sz s.br) (hu : hello.length ≤ sz)
    (hst : BufferedRead.step (readHandler max) s.br (.user (.read (.atLeast hello.length))) = some w) (hb : s'.br = w) (hc : s'.cur = s.cur) (hd : s'.done = s.done) : Inv hello max .reading s' := by
  have hcur := h.cur_none (fun q => by cases q)
  have hw := h.notWaiting (fun q => by cases q)
  obtain ⟨good, rest, g1, g2, g4, g5⟩ := h.hist
  have hcount := h.count (fun q => by cases q)
  have hmore := h.more (fun q => by cases q)
  unfold BufferedRead.step at hst
  dsimp only at hst
  by_cases hg : (s.br.looping || s.br.closed) = true
  · rw [if_pos hg] at hst; cases hst
  rw [if_neg hg] at hst
  have hcl : s.br.closed = false := by
    cases hx : s.br.closed with
    | false => rfl
    | true => rw [hx, Bool.or_true] at hg; exact absurd rfl hg
  injection hst with hst
  have hsz : ¬ hello.length > s.br.rb.size := by
    have := hi.core.rb.1
    show ¬ hello.length > s.br.rb.mem.length
    omega
  unfold BufferedRead.act BufferedRead.read at hst
  dsimp only at hst
  rw [if_neg hsz] at hst
  unfold BufferedRead.read.go at hst
  subst hst
  refine { misuse := by rw [hb]; show (s.br.misuse || s.br.waiting) = false; rw [h.misuse, hw]; rfl, shall := by rw [hb]; exact h.shall, closed := by rw [hb]; (intro q; have q : s.br.closed = true := q; rw [hcl] at q; cases q), cur := by rw [hc, hcur]; exact ⟨(fun q => by cases q), (fun q => by cases q)⟩, job := by rw [hb]; rfl, wait := fun _ => rfl, start := (fun q => by cases q), fresh := by rw [hb]; exact h.fresh, toWrite := (fun d q => by cases q), writing := (fun q => by cases q), enough := (fun q => by rcases q with ⟨d, q⟩ | q | q <;> cases q), hist := ⟨good, rest, by rw [hd]; exact g1, g2, g4, by rw [hb]; exact g5⟩, count := fun _ => by rw [hb]; exact hcount, more := fun _ => by rw [hb]; exact hmore, most := by rw [hb]; exact h.most, errs := by rw [hb]; exact h.errs, nums := by rw [hb]; exact h.nums, units := by rw [hb]; exact h.units, why := (fun q => by cases q) }

/-- `client->bytes_read` when it is used. -/
theorem bytesRead_eq {p : Phase} {s : Sys} (h : Inv hello max p s) (hcl : s.br.closed = false) : bytesRead s.br = if s.br.calls = [] then 0 else hello.length := by
  unfold bytesRead
  cases hl : s.br.calls.getLast? with
  | none => rw [if_pos (List.getLast?_eq_none_iff.1 hl)]
  | some c =>
    have hm := List.mem_of_getLast? hl
    rw [if_neg (fun q => by rw [q] at hm; cases hm)]
    refine h.nums c hm (Classical.byContradiction fun he => ?_)
    rw [h.errs c hm he] at hcl
    cases hcl

theorem consume_inv {sz : Nat} {s s' : Sys} {w : World} (h : Inv hello max .toConsume s) (hi : BufferedRead.Inv sz s.br)
    (hst : BufferedRead.step (readHandler max) s.br (.user (.consume (bytesRead s.br))) = some w) (hb : s'.br = w) (hc : s'.cur = s.cur) (hd : s'.done = s.done) : Inv hello max .toRead s' := by
  have hlen := BufferedRead.unread_length sz s.br.rb hi.core.rb
  have hun := h.enough (Or.inr (Or.inr rfl))
  have hcur := h.cur_none (fun q => by cases q)
  have hcl := h.open' (fun q => by cases q)
  have hbr := bytesRead_eq h hcl
  have hcount := h.count (fun q => by cases q)
  have hmore := h.more (fun q => by cases q)
  obtain ⟨good, rest, g1, g2, g3, x, g4, g5, g6⟩ := h.hist
  unfold BufferedRead.step at hst
  dsimp only at hst
  by_cases hg : (s.br.looping || s.br.closed) = true
  · rw [if_pos hg] at hst; cases hst
  rw [if_neg hg] at hst
  injection hst with hst
  unfold BufferedRead.act at hst
  dsimp only at hst
  subst hst
  have hj := h.job
  have hcalls : s'.br.calls = s.br.calls := by rw [hb]
  have hpg := pings_same hcalls
  have hle : bytesRead s.br ≤ s.br.rb.unread.length := by
    rw [hbr]
    split
    · exact Nat.zero_le _
    · next q => exact hun q
  have hcons : s'.br.consumed = s.br.consumed ++ s.br.rb.unread.take (bytesRead s.br) := by rw [hb]
  have hheld : held hello.length s.br .toConsume = bytesRead s.br := by rw [hbr]; rfl
  refine { misuse := ?_, shall := by rw [hb]; exact h.shall, closed := by rw [hb]; (intro q; have q : s.br.closed = true := q; rw [hcl] at q; cases q), cur := by rw [hc, hcur]; exact ⟨(fun q => by cases q), (fun q => by cases q)⟩, job := by rw [hb]; exact hj, wait := by rw [hb]; (intro q; have := h.wait q; cases this), start := (fun q => by cases q), fresh := ?_, toWrite := (fun d q => by cases q), writing := (fun q => by cases q), enough := (fun q => by rcases q with ⟨d, q⟩ | q | q <;> cases q), hist := ?_, count := ?_, more := fun _ => by rw [hpg]; exact hmore, most := by rw [hpg]; exact h.most, errs := by rw [hb]; exact h.errs, nums := by rw [hb]; exact h.nums, units := by rw [hb]; exact h.units, why := (fun q => by cases q) }
  · rw [hb]
    show (s.br.misuse || decide (s.br.rb.unreadBytes < bytesRead s.br)) = false
    rw [h.misuse, decide_eq_false (by omega)]; rfl
  · intro q
    rw [hcalls] at q
    rw [hcons, h.fresh q, hbr, if_pos q]
    rfl
  · refine ⟨good ++ [x], [], by rw [hd, g1, g4, List.append_nil], ?_, rfl, ?_⟩
    · intro y hy
      rcases mem_concat hy with hy | hy
      · exact g2 y hy
      · subst hy; exact g5
    · rw [List.flatMap_append, g3, hcons]
      have : [x].flatMap Write.asked = now hello s.br := by
        unfold StreamSocket.Write.asked
        simp [g6, flat]
      rw [this, hbr]
      unfold before now
      by_cases q : s.br.calls = []
      · rw [if_pos q, if_pos q, if_pos q, h.fresh q]
        simp
      · rw [if_neg q, if_neg q, if_neg q, List.append_assoc]
  · intro _
    have hheld0 : held hello.length s'.br .toRead = 0 := rfl
    rw [hheld0, hpg, hcons, List.length_append, List.length_take, Nat.min_eq_left hle]
    rw [hheld] at hcount
    omega

theorem close_inv {sz : Nat} {s s' : Sys} {w : World} (h : Inv hello max .toClose s) (hi : BufferedRead.Inv sz s.br) (hst : BufferedRead.step (readHandler max) s.br (.user .close) = some w)
    (hb : s'.br = w) (hc : s'.cur = s.cur) (hd : s'.done = s.done) : Inv hello max .stopped s' := by
  have hcur := h.cur_none (fun q => by cases q)
  have hw := h.notWaiting (fun q => by cases q)
  obtain ⟨good, rest, g1, g2, g3, x, g4, g5, g6⟩ := h.hist
  unfold BufferedRead.step at hst
  dsimp only at hst
  by_cases hg : (s.br.looping || s.br.closed) = true
  · rw [if_pos hg] at hst; cases hst
  rw [if_neg hg] at hst
  injection hst with hst
  unfold BufferedRead.act BufferedRead.close at hst
  dsimp only at hst
  rw [if_pos hi.cb] at hst
  subst hst
  have hj := h.job
  refine { misuse := by rw [hb]; exact h.misuse, shall := (fun q => by rw [hb] at q; cases q), closed := fun _ => rfl, cur := by rw [hc, hcur]; exact ⟨(fun q => by cases q), (fun q => by cases q)⟩, job := by rw [hb]; exact hj, wait := by rw [hb]; (intro q; have q : s.br.waiting = true := q; rw [hw] at q; cases q), start := (fun q => by cases q), fresh := by rw [hb]; exact h.fresh, toWrite := (fun d q => by cases q), writing := (fun q => by cases q), enough := (fun q => by rcases q with ⟨d, q⟩ | q | q <;> cases q), hist := ⟨good, rest, by rw [hd]; exact g1, g2, Or.inr ⟨by rw [hb]; exact g3, x, g4, g5, by rw [hb]; exact g6⟩⟩, count := fun q => absurd rfl q, more := fun q => absurd rfl q, most := by rw [hb]; exact h.most, errs := fun _ _ _ => by rw [hb], nums := by rw [hb]; exact h.nums, units := by rw [hb]; exact h.units, why := fun _ => Or.inr ⟨x, by rw [hd, g1, g4]; exact List.mem_append_right _ (List.mem_singleton_self x), g5⟩ }

/-- The transport has completed a read. -/
theorem arrived_inv {p : Phase} {s s' : Sys} {w : World} {e : BufferedRead.Ev} (h : Inv hello max p s) (he : (∃ d, e = .deliver d) ∨ ∃ r, e = .fail r)
    (hst : BufferedRead.step (readHandler max) s.br e = some w) (hb : s'.br = w) (hc : s'.cur = s.cur) (hd : s'.done = s.done) : Inv hello max p s' := by
  have key : s.br.waiting = true ∧ w.misuse = s.br.misuse ∧ w.closed = s.br.closed ∧ w.shallClose = s.br.shallClose ∧ w.job = s.br.job ∧ w.waiting = false ∧ w.consumed = s.br.consumed ∧ w.calls = s.br.calls := by
    rcases he with ⟨d, he⟩ | ⟨r, he⟩ <;> subst he <;> unfold BufferedRead.step at hst <;> dsimp only at hst
    · by_cases hg : (s.br.waiting && !s.br.looping && !s.br.closed && decide (d.length ≤ s.br.rb.spaceAvailable)) = true
      · rw [if_pos hg] at hst
        injection hst with hst; subst hst
        simp only [Bool.and_eq_true] at hg
        exact ⟨hg.1.1.1, rfl, rfl, rfl, rfl, rfl, rfl, rfl⟩
      · rw [if_neg hg] at hst; cases hst
    · by_cases hg : (s.br.waiting && !s.br.looping && !s.br.closed && decide (r ≠ SUCCESS)) = true
      · rw [if_pos hg] at hst
        injection hst with hst; subst hst
        simp only [Bool.and_eq_true] at hg
        exact ⟨hg.1.1.1, rfl, rfl, rfl, rfl, rfl, rfl, rfl⟩
      · rw [if_neg hg] at hst; cases hst
  obtain ⟨k0, k1, k2, k3, k4, k5, k6, k7⟩ := key
  subst hb
  exact h.same k1 k2 k3 hc k4 (fun q => by rw [k5] at q; cases q) (Or.inr (h.wait k0)) hd k6 k7

/-- A write begins. -/
theorem write_inv {p : Phase} {s : Sys} (h : Inv hello max p s) (hp : p = .start ∨ ∃ d, p = .toWrite d) {chain : List BufferedWrite.Elem} (hch : chain = [⟨elem, now hello s.br⟩]) :
    Inv hello max .writing { s with cur := some { chain := chain, answers := [], world := BufferedWrite.write chain }, asked := false } := by
  have hns : p ≠ .stopped := by rcases hp with hp | ⟨d, hp⟩ <;> (rw [hp]; intro q; cases q)
  have hnr : p ≠ .reading := by rcases hp with hp | ⟨d, hp⟩ <;> (rw [hp]; intro q; cases q)
  have hcl := h.open' hns
  have hw := h.notWaiting hnr
  have hcount := h.count hns
  have hmore := h.more hns
  have hjob := h.job
  rw [if_neg hnr] at hjob
  obtain ⟨good, rest, g1, g2, g4⟩ := h.hist
  have g4 : rest = [] ∧ good.flatMap Write.asked = before hello s.br := by rcases hp with hp | ⟨d, hp⟩ <;> (subst hp; exact g4)
  have hheld : held hello.length s.br p = if s.br.calls = [] then 0 else hello.length := by
    rcases hp with hp | ⟨d, hp⟩
    · rw [if_pos (h.start hp), hp]; rfl
    · rw [hp]; rfl
  refine { misuse := h.misuse, shall := h.shall, closed := fun q => by (rw [hcl] at q; cases q), cur := ⟨fun _ => rfl, fun _ => rfl⟩, job := hjob, wait := fun q => by (have q : s.br.waiting = true := q; rw [hw] at q; cases q), start := (fun q => by cases q), fresh := h.fresh, toWrite := (fun d q => by cases q), writing := fun _ x hx => by (injection hx with hx; subst hx; exact hch), enough := fun _ q => ?_, hist := ⟨good, rest, g1, g2, g4⟩, count := fun _ => by (rw [hheld] at hcount; exact hcount), more := fun _ => hmore, most := h.most, errs := h.errs, nums := h.nums, units := h.units, why := (fun q => by cases q) }
  rcases hp with hp | hp
  · exact absurd (h.start hp) q
  · exact h.enough (Or.inl hp) q

theorem step_inv {quiet c : Bool} {mem : List UInt8} (hu : hello.length ≤ mem.length) {p p' : Phase} {s s' : Sys} {e : Ev} (i : StreamSocket.Inv quiet (readHandler max) c mem s) (h : Inv hello max p s)
    (hs : step (readHandler max) s e = some s') (hp : next hello max p s s' e = some p') : Inv hello max p' s' := by
  have sock : ∀ {m : Socket.Move}, (Socket.step s.sock m).map (fun k => { s with sock := k }) = some s' → Inv hello max p s' := fun {m} hm => by
    cases hk : Socket.step s.sock m with
    | none => rw [hk] at hm; cases hm
    | some k => rw [hk] at hm; injection hm with hm; subst hm; exact h.sockOnly k
  cases e with
  | peerSends d => injection hp with hp; subst hp; exact sock hs
  | peerCloses => injection hp with hp; subst hp; exact sock hs
  | timeout => injection hp with hp; subst hp; exact sock hs
  | enter =>
    unfold next at hp
    dsimp only at hp
    split at hp
    · injection hp with hp; subst hp; exact sock hs
    · cases hp
  | leave =>
    unfold next at hp
    dsimp only at hp
    unfold step at hs
    dsimp only at hs
    split at hs
    · cases hs
    split at hp
    · injection hp with hp; subst hp; exact sock hs
    · cases hp
  | user a os =>
    unfold step at hs
    dsimp only at hs
    split at hs
    · cases hs
    cases hb : BufferedRead.step (readHandler max) s.br (.user a) with
    | none => rw [hb] at hs; cases hs
    | some w =>
      rw [hb, Option.bind_some] at hs
      obtain ⟨f1, f2, f3, -⟩ := follow_eq hs
      unfold next at hp
      dsimp only at hp
      split at hp
      · split at hp
        · next hn => injection hp with hp; subst hp; subst hn; exact consume_inv h i.br hb f1 f2 f3
        · cases hp
      · split at hp
        · next hn => injection hp with hp; subst hp; subst hn; exact read_inv h i.br hu hb f1 f2 f3
        · cases hp
      · injection hp with hp; subst hp; exact close_inv h i.br hb f1 f2 f3
      · cases hp
  | loop os =>
    unfold step at hs
    dsimp only at hs
    split at hs
    · cases hs
    cases hb : BufferedRead.step (readHandler max) s.br (.loop SUCCESS) with
    | none => rw [hb] at hs; cases hs
    | some w =>
      rw [hb, Option.bind_some] at hs
      obtain ⟨f1, f2, f3, -⟩ := follow_eq hs
      have hl : s.br.looping = true := by
        unfold BufferedRead.step at hb
        dsimp only at hb
        split at hb
        · assumption
        · cases hb
      have hw : s.br.waiting = false := by
        cases hw : s.br.waiting with
        | false => rfl
        | true => have := (i.br.wait hw).1; rw [hl] at this; cases this
      have hcl := i.loopOpen hl
      unfold next at hp
      dsimp only at hp
      by_cases hpr : p = .reading
      · subst hpr
        have hj : s.br.job = some (.atLeast hello.length) := h.job
        rcases loop_reading i.br hj (h.shall hcl) hb with ⟨cl, l1, l2, l3, l4, l5, l6, l7⟩ | ⟨cl, l, l3, l4, l5⟩ | ⟨l1, l2, l3, l4, l5, l6, l7, l8⟩
        · have hc : w.calls = s.br.calls ++ [cl] := by rw [l1]
          have hpg := pings_concat hc
          rw [if_pos l2] at hpg
          rw [f1, hc, if_neg (by simp), List.getLast?_concat] at hp
          dsimp only at hp
          rw [if_pos l2, hpg, if_pos l7, l3, l4] at hp
          injection hp with hp
          subst hp
          exact toWrite_inv h hw (f1.trans l1) l2 l3 l5 l6 l7 f2 f3
        · have hpg := pings_concat l.calls
          rw [f1, l.calls, if_neg (by simp), List.getLast?_concat] at hp
          dsimp only at hp
          have hp : some Phase.stopped = some p' := by
            rcases l5 with l5 | ⟨l5, -, l6, -⟩
            · rw [if_neg l5] at hp; exact hp
            · rw [if_pos l5, hpg, if_pos l5, if_neg (by omega)] at hp; exact hp
          injection hp with hp
          subst hp
          exact ended_inv h hw (by rw [f1]; exact l) l3 l5 f2 f3
        · rw [f1, l1, if_pos rfl] at hp
          injection hp with hp
          subst hp
          exact h.same (by rw [f1, l8]) (by rw [f1, l4]) (by rw [f1, l5]; exact (h.shall hcl).symm) f2 (by rw [f1, l3]) (fun _ => rfl) (Or.inr rfl) f3 (by rw [f1, l7]) (by rw [f1, l1])
      · have hj : s.br.job = none := by rw [h.job, if_neg hpr]
        have hw' := loop_idle hj hb
        have hc : w.calls = s.br.calls := by rw [hw']
        rw [f1, hc, if_pos rfl] at hp
        injection hp with hp
        subst hp
        exact h.same (by rw [f1, hw']) (by rw [f1, hw']) (by rw [f1, hw']) f2 (by rw [f1, hw']) (by rw [f1, hw']; exact h.wait) (Or.inl (by rw [f1, hw'])) f3 (by rw [f1, hw']) (by rw [f1, hw'])
  | readable r =>
    injection hp with hp
    subst hp
    unfold step at hs
    dsimp only at hs
    cases hk : Socket.step s.sock (.readable true r) with
    | none => rw [hk] at hs; cases hs
    | some k =>
      rw [hk, Option.bind_some] at hs
      split at hs
      · next t er d _ =>
        cases hb : BufferedRead.step (readHandler max) s.br (if er = SUCCESS then .deliver d else .fail er) with
        | none => rw [hb] at hs; cases hs
        | some w =>
          rw [hb] at hs
          injection hs with hs
          subst hs
          refine arrived_inv h ?_ hb rfl rfl rfl
          split
          · exact Or.inl ⟨_, rfl⟩
          · exact Or.inr ⟨_, rfl⟩
      · injection hs with hs; subst hs; exact h.sockOnly k
  | write chain =>
    unfold step at hs
    dsimp only at hs
    split at hs
    · cases hs
    injection hs with hs
    subst hs
    unfold next at hp
    dsimp only at hp
    split at hp
    · split at hp
      · next hc =>
        injection hp with hp
        subst hp
        exact write_inv h (Or.inl rfl) (by rw [hc]; unfold now; rw [if_pos (h.start rfl)])
      · cases hp
    · next d =>
      split at hp
      · next hc =>
        injection hp with hp
        subst hp
        obtain ⟨t1, t2⟩ := h.toWrite d rfl
        exact write_inv h (Or.inr ⟨d, rfl⟩) (by rw [hc]; unfold now; rw [if_neg t1, t2])
      · cases hp
    · cases hp
  | send r =>
    unfold step at hs
    dsimp only at hs
    split at hs
    · cases hs
    · next x hx =>
      split at hs
      · cases hs
      · cases hk : Socket.step s.sock (.write x.data r true) with
        | none => rw [hk] at hs; cases hs
        | some k =>
          rw [hk, Option.bind_some] at hs
          split at hs
          · obtain ⟨b1, b2⟩ := settle_eq hs
            exact write_goes_on h hx b1 b2 hp
          · injection hs with hs
            subst hs
            unfold next at hp
            dsimp only at hp
            rw [if_pos rfl] at hp
            injection hp with hp
            subst hp
            exact h.same rfl rfl rfl rfl rfl h.wait (Or.inl rfl) rfl rfl rfl
          · obtain ⟨b1, b2⟩ := settle_eq hs
            exact write_goes_on h hx b1 b2 hp
          · cases hs
  | writable er =>
    unfold step at hs
    dsimp only at hs
    cases hk : Socket.step s.sock (.writable er) with
    | none => rw [hk] at hs; cases hs
    | some k =>
      rw [hk, Option.bind_some] at hs
      split at hs
      · next x _ _ _ hx _ =>
        obtain ⟨b1, b2⟩ := settle_eq hs
        exact write_goes_on h hx b1 b2 hp
      · cases hs

end Cio.PingPong
