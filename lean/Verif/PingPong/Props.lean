import Verif.PingPong.Step
/-
C114: the ping-pong client.
-/
namespace Cio.PingPong
open BufferedRead (UAct Handler Job World Call)
open StreamSocket (Sys Ev Write step Allowed follow settle answer)
open BufferedWrite (FirstEndsEarly flat)
open Echo (ToldSuccess elem follow_eq settle_eq)

variable {quiet c : Bool} {mem hello : List UInt8} {max : Nat} {p : Phase} {s : Sys}

theorem reach_both (hmem : mem ≠ []) (hu : hello.length ≤ mem.length) (h : Reach hello max quiet c mem p s) : StreamSocket.Reach quiet (readHandler max) c mem s ∧ Inv hello max p s := by
  induction h with
  | init => exact ⟨.init, init_inv hello max c mem⟩
  | @step p p' s s' e h ha hs hp ih =>
    have i := step_inv hu (StreamSocket.reach_inv hmem ih.1) ih.2 hs hp
    refine ⟨.step ih.1 ha hs i.misuse fun g _ => Or.inl ?_, i⟩
    have := i.closed g
    cases hx : s'.cur with
    | none => rfl
    | some x => have := i.cur.1 (by rw [hx]; rfl); rw [i.closed g] at this; cases this

/-- C114: the client is a proper user of the stream and of the socket (so that C65 applies to it). -/
theorem proper_user (hmem : mem ≠ []) (hu : hello.length ≤ mem.length) (h : Reach hello max quiet c mem p s) : StreamSocket.Reach quiet (readHandler max) c mem s := (reach_both hmem hu h).1

/-- What the server gets, seen from inside. -/
theorem out_partial (hmem : mem ≠ []) (hu : hello.length ≤ mem.length) (h : Reach hello max quiet c mem p s) (hf : ∀ x ∈ s.writes, FirstEndsEarly x.chain x.answers) :
    ∃ part, (s.sock.outgoing = before hello s.br ++ part ∧ part <+: now hello s.br) ∨ (s.sock.outgoing = hello ++ s.br.consumed ∧ part = []) := by
  obtain ⟨hr, i⟩ := reach_both hmem hu h
  obtain ⟨w1, w2, w3, w4⟩ := StreamSocket.writes_reach_peer_partial hmem hr hf
  obtain ⟨good, rest, g1, g2, g4⟩ := i.hist
  have hgood : ∀ l : List Write, (∀ x ∈ l, x ∈ s.done ∧ ToldSuccess x) → l.flatMap (fun x => x.world.wire) = l.flatMap StreamSocket.Write.asked := by
    intro l hl
    induction l with
    | nil => rfl
    | cons x l ih =>
      rw [List.flatMap_cons, List.flatMap_cons, ih fun y hy => hl y (List.mem_cons_of_mem _ hy)]
      congr 1
      obtain ⟨h1, ch, h2⟩ := hl x List.mem_cons_self
      have h2 := List.mem_of_getLast? h2
      rcases (w2 x (List.mem_append_left _ h1)).2.2 (w3 x h1) with ⟨e, c', e1, -, e3⟩ | ⟨e1, -⟩
      · rw [e1, List.mem_singleton] at h2
        injection h2 with h2
        exact e3 h2.symm
      · rw [e1] at h2; cases h2
  have hg := hgood good fun x hx => ⟨by rw [g1]; exact List.mem_append_left _ hx, g2 x hx⟩
  have single : ∀ x, x ∈ s.writes → x.chain = [⟨elem, now hello s.br⟩] → ([x].flatMap fun x => x.world.wire) <+: now hello s.br := fun x hx hch => by
    have := (w2 x hx).1
    rw [hch] at this
    simpa [flat] using this
  have inDone : ∀ x, x ∈ rest → x ∈ s.writes := fun x hx => List.mem_append_left _ (by rw [g1]; exact List.mem_append_right _ hx)
  have hall : s.sock.outgoing = good.flatMap Write.asked ++ (rest ++ s.cur.toList).flatMap (fun x => x.world.wire) := by
    rw [w1]
    unfold StreamSocket.Sys.writes
    rw [g1, List.append_assoc, List.flatMap_append, hg]
  have one : p ≠ .writing → good.flatMap Write.asked = before hello s.br → (∃ x, rest = [x] ∧ x.chain = [⟨elem, now hello s.br⟩]) →
      ∃ part, (s.sock.outgoing = before hello s.br ++ part ∧ part <+: now hello s.br) ∨ (s.sock.outgoing = hello ++ s.br.consumed ∧ part = []) := by
    rintro hp g3 ⟨x, e1, e2⟩
    refine ⟨[x].flatMap fun x => x.world.wire, Or.inl ⟨?_, single x (inDone x (by rw [e1]; exact List.mem_singleton_self x)) e2⟩⟩
    rw [hall, g3, i.cur_none hp, e1]; rfl
  have none : p ≠ .writing → rest = [] → s.sock.outgoing = good.flatMap Write.asked := by
    intro hp e1
    rw [hall, i.cur_none hp, e1]; exact List.append_nil _
  cases p with
  | start => exact ⟨[], Or.inl ⟨by rw [none (fun q => by cases q) g4.1, g4.2, List.append_nil], List.nil_prefix⟩⟩
  | toWrite d => exact ⟨[], Or.inl ⟨by rw [none (fun q => by cases q) g4.1, g4.2, List.append_nil], List.nil_prefix⟩⟩
  | writing =>
    obtain ⟨e1, e2⟩ : rest = [] ∧ good.flatMap Write.asked = before hello s.br := g4
    obtain ⟨x, hx⟩ := Option.isSome_iff_exists.1 (i.cur.2 rfl)
    refine ⟨[x].flatMap fun x => x.world.wire, Or.inl ⟨?_, single x (List.mem_append_right _ (by rw [hx]; exact List.mem_singleton_self x)) (i.writing rfl x hx)⟩⟩
    rw [hall, e2, e1, hx]; rfl
  | toConsume => obtain ⟨e1, x, e2, -, e3⟩ := g4; exact one (fun q => by cases q) e1 ⟨x, e2, e3⟩
  | toClose => obtain ⟨e1, x, e2, -, e3⟩ := g4; exact one (fun q => by cases q) e1 ⟨x, e2, e3⟩
  | toRead => exact ⟨[], Or.inr ⟨by rw [none (fun q => by cases q) g4.1, g4.2], rfl⟩⟩
  | reading => exact ⟨[], Or.inr ⟨by rw [none (fun q => by cases q) g4.1, g4.2], rfl⟩⟩
  | stopped =>
    rcases g4 with ⟨e1, e2, -⟩ | ⟨e1, x, e2, -, e3⟩
    · exact ⟨[], Or.inr ⟨by rw [none (fun q => by cases q) e1, e2], rfl⟩⟩
    · exact one (fun q => by cases q) e1 ⟨x, e2, e3⟩

/-- C114: what the client sends is the greeting followed by a beginning of what it was sent.
Missing: sends that end within a message, or that find the socket's buffer full at once (`FirstEndsEarly`); the claim is false then (`greeting_sent_twice`). -/
theorem sends_partial (hmem : mem ≠ []) (hu : hello.length ≤ mem.length) (h : Reach hello max quiet c mem p s) (hf : ∀ x ∈ s.writes, FirstEndsEarly x.chain x.answers) :
    s.sock.outgoing <+: hello ++ Socket.sent s.sock.log := by
  obtain ⟨hr, i⟩ := reach_both hmem hu h
  obtain ⟨r1, -, -⟩ := StreamSocket.reads_what_peer_sent hmem hr
  obtain ⟨part, ⟨e1, e2⟩ | ⟨e1, -⟩⟩ := out_partial hmem hu h hf
  · rw [e1]
    unfold before now at *
    by_cases q : s.br.calls = []
    · rw [if_pos q] at e2 ⊢
      rw [List.nil_append]
      exact e2.trans (List.prefix_append _ _)
    · rw [if_neg q] at e2 ⊢
      rw [List.append_assoc]
      exact (List.prefix_append_right_inj _).2 (((List.prefix_append_right_inj _).2 (e2.trans (List.take_prefix _ _))).trans r1)
  · rw [e1]
    exact (List.prefix_append_right_inj _).2 ((List.prefix_append _ _).trans r1)

theorem quiet_on_error : BufferedRead.QuietOnError (readHandler max) := by
  intro w c hc he a ha j
  unfold readHandler at ha
  rw [hc] at ha
  dsimp only at ha
  rw [if_neg he, List.mem_singleton] at ha
  subst ha
  intro q; cases q

/-- While the client has something left to do, it is running. -/
theorem in_user (hmem : mem ≠ []) (hu : hello.length ≤ mem.length) (h : Reach hello max quiet c mem p s) (hp : p = .toConsume ∨ p = .toRead ∨ p = .toClose ∨ ∃ d, p = .toWrite d) : s.inUser = true := by
  induction h with
  | init => rcases hp with q | q | q | ⟨d, q⟩ <;> cases q
  | @step p p' s s' e h ha hs hn ih =>
    have hne : e ≠ .leave := by
      intro q
      subst q
      unfold next at hn
      dsimp only at hn
      split at hn
      · next g => injection hn with hn; subst hn; rcases hp with q | q | q | ⟨d, q⟩ <;> subst q <;> rcases g with g | g | g <;> cases g
      · cases hn
    refine StreamSocket.inUser_step hmem (reach_both hmem hu h).1 ha hs hne fun hact => ?_
    cases e with
    | user a os => cases hact
    | loop os => cases hact
    | send r => cases hact
    | writable er => cases hact
    | leave => exact absurd rfl hne
    | write chain =>
      unfold next at hn
      dsimp only at hn
      split at hn
      · split at hn
        · injection hn with hn; subst hn; rcases hp with q | q | q | ⟨d, q⟩ <;> cases q
        · cases hn
      · next d => exact ih (Or.inr (Or.inr (Or.inr ⟨d, rfl⟩)))
      · cases hn
    | enter =>
      unfold next at hn
      dsimp only at hn
      split at hn
      · injection hn with hn; subst hn; exact ih hp
      · cases hn
    | peerSends d => injection hn with hn; subst hn; exact ih hp
    | peerCloses => injection hn with hn; subst hn; exact ih hp
    | timeout => injection hn with hn; subst hn; exact ih hp
    | readable r => injection hn with hn; subst hn; exact ih hp

/-- C115: whenever control is back in the event loop, the client has not started yet, or it waits for the socket to become readable with an unfinished message, or it waits for the socket to
become writable, or it has closed the stream, or a write has failed. -/
theorem at_rest (hmem : mem ≠ []) (hu : hello.length ≤ mem.length) (h : Reach hello max quiet c mem p s) (hst : s.sock.stack = []) :
    p = .start ∨ (p = .reading ∧ s.br.waiting = true ∧ s.br.rb.unread.length < hello.length) ∨ (p = .writing ∧ s.asked = true) ∨
      (p = .stopped ∧ (s.br.closed = true ∨ ∃ x ∈ s.done, ¬ ToldSuccess x)) := by
  obtain ⟨hr, i⟩ := reach_both hmem hu h
  have hnu := StreamSocket.Sys.not_inUser hst
  have absurdUser : (p = .toConsume ∨ p = .toRead ∨ p = .toClose ∨ ∃ d, p = .toWrite d) → False := fun hp => by
    have := in_user hmem hu h hp
    rw [hnu] at this; cases this
  cases p with
  | start => exact Or.inl rfl
  | toConsume => exact (absurdUser (Or.inl rfl)).elim
  | toRead => exact (absurdUser (Or.inr (Or.inl rfl))).elim
  | toClose => exact (absurdUser (Or.inr (Or.inr (Or.inl rfl)))).elim
  | toWrite d => exact (absurdUser (Or.inr (Or.inr (Or.inr ⟨d, rfl⟩)))).elim
  | reading =>
    have hj : s.br.job = some (.atLeast hello.length) := i.job
    have hw := StreamSocket.pending_read_waits_partial quiet_on_error hmem hr (by rw [hj]; rfl) (i.open' (fun q => by cases q)) hst
    obtain ⟨-, -, j, h3, h4⟩ := (StreamSocket.reach_inv hmem hr).br.wait hw
    rw [hj] at h3
    injection h3 with h3
    subst h3
    exact Or.inr (Or.inl ⟨rfl, hw, Nat.lt_of_not_le h4⟩)
  | writing => exact Or.inr (Or.inr (Or.inl ⟨rfl, (StreamSocket.pending_write_waits hmem hr (i.cur.2 rfl) (i.open' (fun q => by cases q)) hst).1⟩))
  | stopped =>
    refine Or.inr (Or.inr (Or.inr ⟨rfl, ?_⟩))
    rcases i.why rfl with ⟨e, -⟩ | e
    · exact Or.inl e
    · exact Or.inr e

/-- C114: while the client reads, everything it was given before has been sent back, and the greeting before that.
Missing: as in `sends_partial`. -/
theorem sends_all_partial (hmem : mem ≠ []) (hu : hello.length ≤ mem.length) (h : Reach hello max quiet c mem p s) (hf : ∀ x ∈ s.writes, FirstEndsEarly x.chain x.answers)
    (hst : s.sock.stack = []) (hp : p = .reading) (hin : s.sock.incoming = []) :
    s.sock.outgoing = hello ++ (Socket.sent s.sock.log).take (hello.length * ((Socket.sent s.sock.log).length / hello.length)) := by
  obtain ⟨hr, i⟩ := reach_both hmem hu h
  have hlt : s.br.rb.unread.length < hello.length := by
    rcases at_rest hmem hu h hst with q | ⟨-, -, q⟩ | ⟨q, -⟩ | ⟨q, -⟩
    · rw [hp] at q; cases q
    · exact q
    · rw [hp] at q; cases q
    · rw [hp] at q; cases q
  subst hp
  have hcl := i.open' (fun q => by cases q)
  obtain ⟨-, r2, -⟩ := StreamSocket.reads_what_peer_sent hmem hr
  have hsent := r2 hcl
  rw [hin, List.append_nil] at hsent
  have hcur := i.cur_none (fun q => by cases q)
  have hk := i.count (fun q => by cases q)
  obtain ⟨good, rest, g1, g2, g4, g5⟩ := i.hist
  rw [g4, List.append_nil] at g1
  have hout := StreamSocket.all_writes_successful_partial hmem hr hf hcur (by rw [g1]; exact fun x hx => (g2 x hx).elim fun ch hch => ⟨ch, List.mem_of_getLast? hch⟩)
  rw [g1, g5] at hout
  have hq : hello.length * ((Socket.sent s.sock.log).length / hello.length) = s.br.consumed.length := by
    have hk : s.br.consumed.length = hello.length * pings s.br := hk
    rw [← hsent, List.length_append, hk, Nat.mul_add_div (by omega), Nat.div_eq_of_lt hlt, Nat.add_zero]
  rw [hq, hout, ← hsent, List.take_left]

/-- C115: the client never reads more than `max` messages, or one if `max` is 0, and each read gives it as many bytes as the greeting has. -/
theorem never_too_many (hmem : mem ≠ []) (hu : hello.length ≤ mem.length) (h : Reach hello max quiet c mem p s) :
    (s.br.calls.filter fun x => decide (x.err = SUCCESS)).length ≤ Nat.max 1 max ∧ ∀ x ∈ s.br.calls, x.err = SUCCESS → x.num = hello.length := by
  obtain ⟨hr, i⟩ := reach_both hmem hu h
  refine ⟨?_, i.nums⟩
  rw [← List.countP_eq_length_filter]
  have h1 := Nat.le_max_left 1 max
  have h2 := Nat.le_max_right 1 max
  rcases i.most with q | q
  · exact Nat.le_trans q h1
  · exact Nat.le_trans q h2

/-- C115: the client closes the connection only if it was told of an error, or a write failed, or it has read as often as it was to. -/
theorem closes_only (hmem : mem ≠ []) (hu : hello.length ≤ mem.length) (h : Reach hello max quiet c mem p s) (hc : s.br.closed = true) :
    (∃ x ∈ s.br.calls, x.err ≠ SUCCESS) ∨ max ≤ (s.br.calls.filter fun x => decide (x.err = SUCCESS)).length ∨ ∃ x ∈ s.done, ¬ ToldSuccess x := by
  obtain ⟨hr, i⟩ := reach_both hmem hu h
  rw [← List.countP_eq_length_filter]
  rcases i.why (i.closed hc) with ⟨-, q | q⟩ | q
  · exact Or.inl q
  · exact Or.inr (Or.inl q)
  · exact Or.inr (Or.inr q)

/-- C115: it does close when it was told of an error of a read. -/
theorem closes_on_error (hmem : mem ≠ []) (hu : hello.length ≤ mem.length) (h : Reach hello max quiet c mem p s) {x : Call} (hx : x ∈ s.br.calls) (he : x.err ≠ SUCCESS) : s.br.closed = true :=
  (reach_both hmem hu h).2.errs x hx he

/-- C115: if nothing went wrong, a client that has closed has read exactly `max` messages, or one if `max` is 0, was told that as many messages, the greeting first, were sent, and was sent as many. -/
theorem finished (hmem : mem ≠ []) (hu : hello.length ≤ mem.length) (h : Reach hello max quiet c mem p s) (hc : s.br.closed = true) (hr : ∀ x ∈ s.br.calls, x.err = SUCCESS)
    (hw : ∀ x ∈ s.done, ToldSuccess x) :
    s.br.calls.length = Nat.max 1 max ∧ (s.done.flatMap Write.asked).length = hello.length * Nat.max 1 max ∧ s.cur = none ∧ hello <+: s.done.flatMap Write.asked ∧
      hello.length * Nat.max 1 max ≤ (Socket.sent s.sock.log).length := by
  obtain ⟨hrr, i⟩ := reach_both hmem hu h
  have hp := i.closed hc
  have hpings : pings s.br = s.br.calls.length := by
    unfold pings
    rw [List.countP_eq_length]
    exact fun x hx => decide_eq_true (hr x hx)
  obtain ⟨good, rest, g1, g2, g4⟩ := i.hist
  subst hp
  have hbad : (∃ x ∈ s.done, ¬ ToldSuccess x) → False := fun ⟨x, hx, q⟩ => q (hw x hx)
  have hbadr : (∃ x ∈ s.br.calls, x.err ≠ SUCCESS) → False := fun ⟨x, hx, q⟩ => q (hr x hx)
  rcases g4 with ⟨e1, e2, -, e3⟩ | ⟨-, x, e1, e2, -⟩
  case inr => exact (hbad ⟨x, by rw [g1, e1]; exact List.mem_append_right _ (List.mem_singleton_self x), e2⟩).elim
  rcases e3 with e3 | ⟨e3, e4, e5⟩
  · exact (hbadr e3).elim
  have hmax : max ≤ pings s.br := by
    rcases i.why rfl with ⟨-, q | q⟩ | q
    · exact (hbadr q).elim
    · exact q
    · exact (hbad q).elim
  have hm : pings s.br = Nat.max 1 max := by
    have : Nat.max 1 max = Max.max 1 max := rfl
    rw [this]
    rcases i.most with q | q <;> omega
  rw [e1, List.append_nil] at g1
  refine ⟨by rw [← hpings, hm], ?_, i.cur_none (fun q => by cases q), ?_, ?_⟩
  · rw [g1, e2, List.length_append, ← hm]; omega
  · rw [g1, e2]; exact List.prefix_append _ _
  · have := (StreamSocket.reads_what_peer_sent hmem hrr).1.length_le
    rw [List.length_append] at this
    rw [← hm]; omega

/-- C114: and then the server has got as many bytes. -/
theorem finished_sent_partial (hmem : mem ≠ []) (hu : hello.length ≤ mem.length) (h : Reach hello max quiet c mem p s) (hf : ∀ x ∈ s.writes, FirstEndsEarly x.chain x.answers)
    (hc : s.br.closed = true) (hr : ∀ x ∈ s.br.calls, x.err = SUCCESS) (hw : ∀ x ∈ s.done, ToldSuccess x) : s.sock.outgoing.length = hello.length * Nat.max 1 max := by
  obtain ⟨f1, f2, f3, -⟩ := finished hmem hu h hc hr hw
  rw [StreamSocket.all_writes_successful_partial hmem (reach_both hmem hu h).1 hf f3 fun x hx => (hw x hx).elim fun ch hch => ⟨ch, List.mem_of_getLast? hch⟩]
  exact f2

end Cio.PingPong
