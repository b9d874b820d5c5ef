import Verif.PingPong.Examples
import Verif.Echo.Exact
/-
C122: what the ping-pong client sends, without any condition on what `sendmsg` does.
-/
namespace Cio.PingPong
open BufferedRead (UAct Handler Job World Call)
open StreamSocket (Sys Ev Write step Allowed onceOrTwice messages)
open BufferedWrite (flat)
open Echo (ToldSuccess elem)

variable {quiet c : Bool} {mem hello : List UInt8} {max : Nat} {p : Phase} {s : Sys}

/-- Every write of the client is one of as many bytes as the greeting has. -/
theorem asks_units (hmem : mem ≠ []) (hu : hello.length ≤ mem.length) (h : Reach hello max quiet c mem p s) : ∀ ch ∈ s.writes.map Write.chain, (flat ch).length = hello.length := by
  induction h with
  | init => exact fun ch hch => nomatch hch
  | @step p p' s s' e h ha hs hp ih =>
    have i := (reach_both hmem hu h).2
    rcases StreamSocket.chains_step hs with q | ⟨ch, he, q⟩
    · rw [q]; exact ih
    · rw [q]
      intro c' hc'
      rcases List.mem_append.1 hc' with g | g
      · exact ih c' g
      · rw [List.mem_singleton.1 g]
        subst he
        unfold next at hp
        dsimp only at hp
        split at hp
        · split at hp
          · next hch => rw [hch]; simp [flat]
          · cases hp
        · next d =>
          split at hp
          · next hch =>
            obtain ⟨t1, t2⟩ := i.toWrite d rfl
            have t3 := i.enough (Or.inl ⟨d, rfl⟩) t1
            rw [hch, t2]
            simp [flat, Nat.min_eq_left t3]
          · cases hp
        · cases hp

/-- The parts of what the client has sent: `good` is over, the rest belongs to the next message. -/
theorem parts (hmem : mem ≠ []) (hu : hello.length ≤ mem.length) (h : Reach hello max quiet c mem p s) :
    ∃ (good : List Write) (nxt part : List UInt8), (∀ x ∈ good, x ∈ s.done ∧ ToldSuccess x) ∧ good.flatMap Write.asked ++ nxt <+: hello ++ Socket.sent s.sock.log ∧ nxt.length ≤ hello.length ∧
      s.sock.outgoing = good.flatMap (fun x => x.world.wire) ++ part ∧ part <+: nxt ++ nxt := by
  obtain ⟨hr, i⟩ := reach_both hmem hu h
  obtain ⟨w1, w2, -⟩ := StreamSocket.writes_exact hmem hr
  obtain ⟨r1, -, -⟩ := StreamSocket.reads_what_peer_sent hmem hr
  obtain ⟨good, rest, g1, g2, g4⟩ := i.hist
  have hall : s.sock.outgoing = good.flatMap (fun x => x.world.wire) ++ (rest ++ s.cur.toList).flatMap (fun x => x.world.wire) := by
    rw [w1]
    unfold StreamSocket.Sys.writes
    rw [g1, List.append_assoc, List.flatMap_append]
  have hgood : ∀ x ∈ good, x ∈ s.done ∧ ToldSuccess x := fun x hx => ⟨by rw [g1]; exact List.mem_append_left _ hx, g2 x hx⟩
  have single : ∀ x, x ∈ s.writes → x.chain = [⟨elem, now hello s.br⟩] → x.world.wire <+: now hello s.br ++ now hello s.br := fun x hx hch => by
    have := (w2 x hx).1
    unfold Write.asked at this
    rw [hch] at this
    simpa [flat] using this
  have hnow : (now hello s.br).length ≤ hello.length := by
    unfold now
    split
    · exact Nat.le_refl _
    · rw [List.length_take]; exact Nat.min_le_left _ _
  have hpre : before hello s.br ++ now hello s.br <+: hello ++ Socket.sent s.sock.log := by
    unfold before now
    by_cases q : s.br.calls = []
    · rw [if_pos q, if_pos q, List.nil_append]
      exact List.prefix_append _ _
    · rw [if_neg q, if_neg q, List.append_assoc]
      exact (List.prefix_append_right_inj _).2 (((List.prefix_append_right_inj _).2 (List.take_prefix _ _)).trans r1)
  have hpre' : hello ++ s.br.consumed ++ [] <+: hello ++ Socket.sent s.sock.log := by
    rw [List.append_nil]
    exact (List.prefix_append_right_inj _).2 ((List.prefix_append _ _).trans r1)
  have inDone : ∀ x, rest = [x] → x ∈ s.writes := fun x hx => List.mem_append_left _ (by rw [g1, hx]; exact List.mem_append_right _ (List.mem_singleton_self x))
  have fin : ∀ nxt, good.flatMap Write.asked ++ nxt <+: hello ++ Socket.sent s.sock.log → nxt.length ≤ hello.length → (rest ++ s.cur.toList).flatMap (fun x => x.world.wire) <+: nxt ++ nxt →
      ∃ (good : List Write) (nxt part : List UInt8), (∀ x ∈ good, x ∈ s.done ∧ ToldSuccess x) ∧ good.flatMap Write.asked ++ nxt <+: hello ++ Socket.sent s.sock.log ∧ nxt.length ≤ hello.length ∧
      s.sock.outgoing = good.flatMap (fun x => x.world.wire) ++ part ∧ part <+: nxt ++ nxt := fun nxt a b d => ⟨good, nxt, _, hgood, a, b, hall, d⟩
  have one : p ≠ .writing → good.flatMap Write.asked = before hello s.br → (x : Write) → rest = [x] → x.chain = [⟨elem, now hello s.br⟩] →
      (rest ++ s.cur.toList).flatMap (fun x => x.world.wire) <+: now hello s.br ++ now hello s.br := by
    intro hp _ x e1 e2
    have := single x (inDone x e1) e2
    rw [i.cur_none hp, e1]
    simpa using this
  have none : p ≠ .writing → rest = [] → ∀ l : List UInt8, (rest ++ s.cur.toList).flatMap (fun x => x.world.wire) <+: l := by
    intro hp e1 l
    rw [i.cur_none hp, e1]; exact List.nil_prefix
  cases p with
  | start => exact fin (now hello s.br) (by rw [g4.2]; exact hpre) hnow (none (fun q => by cases q) g4.1 _)
  | toWrite d => exact fin (now hello s.br) (by rw [g4.2]; exact hpre) hnow (none (fun q => by cases q) g4.1 _)
  | writing =>
    obtain ⟨e1, e2⟩ : rest = [] ∧ good.flatMap Write.asked = before hello s.br := g4
    obtain ⟨x, hx⟩ := Option.isSome_iff_exists.1 (i.cur.2 rfl)
    refine fin (now hello s.br) (by rw [e2]; exact hpre) hnow ?_
    have := single x (List.mem_append_right _ (by rw [hx]; exact List.mem_singleton_self x)) (i.writing rfl x hx)
    rw [e1, hx]
    simpa using this
  | toConsume => obtain ⟨e1, x, e2, -, e3⟩ := g4; exact fin _ (by rw [e1]; exact hpre) hnow (one (fun q => by cases q) e1 x e2 e3)
  | toClose => obtain ⟨e1, x, e2, -, e3⟩ := g4; exact fin _ (by rw [e1]; exact hpre) hnow (one (fun q => by cases q) e1 x e2 e3)
  | toRead => exact fin [] (by rw [g4.2]; exact hpre') (Nat.zero_le _) (none (fun q => by cases q) g4.1 _)
  | reading => exact fin [] (by rw [g4.2]; exact hpre') (Nat.zero_le _) (none (fun q => by cases q) g4.1 _)
  | stopped =>
    rcases g4 with ⟨e1, e2, -⟩ | ⟨e1, x, e2, -, e3⟩
    · exact fin [] (by rw [e2]; exact hpre') (Nat.zero_le _) (none (fun q => by cases q) e1 _)
    · exact fin _ (by rw [e1]; exact hpre) hnow (one (fun q => by cases q) e1 x e2 e3)

theorem messages_units (hmem : mem ≠ []) (hu : hello.length ≤ mem.length) (h : Reach hello max quiet c mem p s) {l : List Write} (hl : ∀ x ∈ l, x ∈ s.done) :
    ∀ u ∈ messages l, u.1.length = hello.length := by
  intro u hu'
  obtain ⟨x, hx, e⟩ := List.mem_map.1 hu'
  rw [← e]
  exact asks_units hmem hu h x.chain (List.mem_map.2 ⟨x, List.mem_append_left _ (hl x hx), rfl⟩)

/-- C122: whatever `sendmsg` does, the server gets the greeting and then its own messages in the order in which it sent them, none left out and none changed, each once or twice, and behind them a
beginning of one or two copies of the next one. -/
theorem sends_once_or_twice (hmem : mem ≠ []) (hu : hello.length ≤ mem.length) (h : Reach hello max quiet c mem p s) :
    ∃ (us : List (List UInt8 × Bool)) (nxt part : List UInt8), (∀ u ∈ us, u.1.length = hello.length) ∧ nxt.length ≤ hello.length ∧ us.flatMap (·.1) ++ nxt <+: hello ++ Socket.sent s.sock.log ∧
      s.sock.outgoing = onceOrTwice us ++ part ∧ part <+: nxt ++ nxt := by
  obtain ⟨hr, i⟩ := reach_both hmem hu h
  obtain ⟨good, nxt, part, h1, h2, h3, h4, h5⟩ := parts hmem hu h
  refine ⟨messages good, nxt, part, messages_units hmem hu h fun x hx => (h1 x hx).1, h3, by rw [StreamSocket.messages_asked]; exact h2, ?_, h5⟩
  rw [h4, StreamSocket.wires_messages hmem hr good fun x hx => ⟨List.mem_append_left _ (h1 x hx).1, (h1 x hx).2.elim fun ch hch => ⟨ch, List.mem_of_getLast? hch⟩⟩]

/-- C122: if nothing failed, a client that has closed has sent exactly `max` messages (one if `max` is 0), the first of them the greeting, each once or twice. -/
theorem finished_once_or_twice (hmem : mem ≠ []) (hh : hello ≠ []) (hu : hello.length ≤ mem.length) (h : Reach hello max quiet c mem p s) (hc : s.br.closed = true) (hr : ∀ x ∈ s.br.calls, x.err = SUCCESS)
    (hw : ∀ x ∈ s.done, ToldSuccess x) :
    ∃ us : List (List UInt8 × Bool), (∀ u ∈ us, u.1.length = hello.length) ∧ us.length = Nat.max 1 max ∧ hello <+: us.flatMap (·.1) ∧ s.sock.outgoing = onceOrTwice us := by
  obtain ⟨f1, f2, f3, f4, -⟩ := finished hmem hu h hc hr hw
  obtain ⟨hrr, i⟩ := reach_both hmem hu h
  obtain ⟨w1, -⟩ := StreamSocket.writes_exact hmem hrr
  have hwr : s.writes = s.done := by unfold StreamSocket.Sys.writes; rw [f3]; exact List.append_nil _
  have hlen := messages_units hmem hu h (l := s.done) fun x hx => hx
  refine ⟨messages s.done, hlen, ?_, by rw [StreamSocket.messages_asked]; exact f4, ?_⟩
  · rw [← StreamSocket.messages_asked] at f2
    have hs : ∀ l : List (List UInt8 × Bool), (∀ u ∈ l, u.1.length = hello.length) → (l.flatMap (·.1)).length = hello.length * l.length := by
      intro l hl
      induction l with
      | nil => rfl
      | cons u l ih => rw [List.flatMap_cons, List.length_append, ih fun v hv => hl v (List.mem_cons_of_mem _ hv), hl u List.mem_cons_self, List.length_cons, Nat.mul_succ, Nat.add_comm]
    rw [hs _ hlen] at f2
    exact Nat.eq_of_mul_eq_mul_left (List.length_pos_iff.2 hh) f2
  · rw [w1, hwr]
    exact StreamSocket.wires_messages hmem hrr s.done fun x hx => ⟨by rw [hwr]; exact hx, (hw x hx).elim fun ch hch => ⟨ch, List.mem_of_getLast? hch⟩⟩

/-- Twice does occur: with the greeting. -/
example : ∃ p s, Reach hi 1 true false (List.replicate 8 0) p s ∧ s.sock.outgoing = onceOrTwice [(hi, true)] := by
  obtain ⟨p, s, h1, -, h2⟩ := greeting_sent_twice
  exact ⟨p, s, h1, by rw [h2]; simp [onceOrTwice]⟩

end Cio.PingPong
