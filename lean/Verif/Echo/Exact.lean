import Verif.Echo.Examples
import Verif.StreamSocket.Exact
/-
C121: what the client of the echo server gets back, without any condition on what `sendmsg` does.
-/
namespace Cio.StreamSocket

/-- A step changes what has been asked to be written only if it is the call of `cio_buffered_stream_write`. -/
theorem chains_step {H : BufferedRead.Handler} {s s' : Sys} {e : Ev} (hs : step H s e = some s') :
    s'.writes.map Write.chain = s.writes.map Write.chain ∨ ∃ ch, e = .write ch ∧ s'.writes.map Write.chain = s.writes.map Write.chain ++ [ch] := by
  have same : s'.cur = s.cur → s'.done = s.done → s'.writes.map Write.chain = s.writes.map Write.chain := fun h1 h2 => by unfold Sys.writes; rw [h1, h2]
  have sock : ∀ {m : Socket.Move}, (Socket.step s.sock m).map (fun k => { s with sock := k }) = some s' → s'.writes.map Write.chain = s.writes.map Write.chain := fun {m} hm => by
    cases hk : Socket.step s.sock m with
    | none => rw [hk] at hm; cases hm
    | some k => rw [hk] at hm; injection hm with hm; subst hm; exact same rfl rfl
  have sett : ∀ {k : Socket.St} {x : Write} {r : BufferedWrite.Resp}, s.cur = some x → settle { s with sock := k } x r = some s' → s'.writes.map Write.chain = s.writes.map Write.chain := fun {k x r} hx h => by
    obtain ⟨-, y, e1, e2⟩ := Echo.settle_eq h
    unfold Sys.writes
    rw [hx]
    rcases e2 with ⟨e2, e3⟩ | ⟨e2, e3⟩
    · rw [e2, e3]; simp [e1]
    · rw [e2, e3]; simp [e1]
  cases e with
  | peerSends d => exact .inl (sock hs)
  | peerCloses => exact .inl (sock hs)
  | enter => exact .inl (sock hs)
  | timeout => exact .inl (sock hs)
  | leave =>
    simp only [step] at hs
    split at hs
    · cases hs
    · exact .inl (sock hs)
  | user a os =>
    simp only [step] at hs
    split at hs
    · cases hs
    · obtain ⟨br, -, h2⟩ := Option.bind_eq_some_iff.1 hs
      exact .inl (same (Echo.follow_eq h2).2.1 (Echo.follow_eq h2).2.2.1)
  | loop os =>
    simp only [step] at hs
    split at hs
    · cases hs
    · obtain ⟨br, -, h2⟩ := Option.bind_eq_some_iff.1 hs
      exact .inl (same (Echo.follow_eq h2).2.1 (Echo.follow_eq h2).2.2.1)
  | readable r =>
    simp only [step] at hs
    obtain ⟨k, -, h2⟩ := Option.bind_eq_some_iff.1 hs
    split at h2
    · obtain ⟨br, -, h3⟩ := Option.map_eq_some_iff.1 h2
      subst h3; exact .inl (same rfl rfl)
    · injection h2 with h2; subst h2; exact .inl (same rfl rfl)
  | write chain =>
    simp only [step] at hs
    split at hs
    · cases hs
    · next g =>
      injection hs with hs
      subst hs
      have hc : s.cur = none := by
        cases hx : s.cur with
        | none => rfl
        | some x => rw [hx] at g; simp at g
      refine .inr ⟨chain, rfl, ?_⟩
      unfold Sys.writes
      rw [hc]; simp
  | send r =>
    simp only [step] at hs
    split at hs
    · cases hs
    · next x hx =>
      split at hs
      · cases hs
      · obtain ⟨k, -, h2⟩ := Option.bind_eq_some_iff.1 hs
        split at h2
        · exact .inl (sett hx h2)
        · injection h2 with h2; subst h2; exact .inl (same rfl rfl)
        · exact .inl (sett hx h2)
        · cases h2
  | writable err =>
    simp only [step] at hs
    obtain ⟨k, -, h2⟩ := Option.bind_eq_some_iff.1 hs
    split at h2
    · next hx _ => exact .inl (sett hx h2)
    · cases h2

/-- Messages, each sent once or twice. -/
def onceOrTwice (ms : List (List UInt8 × Bool)) : List UInt8 := ms.flatMap fun m => if m.2 then m.1 ++ m.1 else m.1

open Classical in
/-- Successful writes as messages. -/
noncomputable def messages (l : List Write) : List (List UInt8 × Bool) := l.map fun x => (x.asked, !decide (BufferedWrite.FirstEndsEarly x.chain x.answers))

theorem messages_asked (l : List Write) : (messages l).flatMap (·.1) = l.flatMap Write.asked := by
  unfold messages
  rw [List.flatMap_map]

/-- What a number of successful writes put on the wire. -/
theorem wires_messages {quiet : Bool} {H : BufferedRead.Handler} {c : Bool} {mem : List UInt8} (hmem : mem ≠ []) {s : Sys} (h : Reach quiet H c mem s) (l : List Write)
    (hl : ∀ x ∈ l, x ∈ s.writes ∧ ∃ ch, (SUCCESS, ch) ∈ x.world.calls) : l.flatMap (fun x => x.world.wire) = onceOrTwice (messages l) := by
  obtain ⟨-, w2, -⟩ := writes_exact hmem h
  induction l with
  | nil => rfl
  | cons x l ih =>
    obtain ⟨h1, ch, h2⟩ := hl x List.mem_cons_self
    obtain ⟨q1, q2⟩ := (w2 x h1).2.2 ch h2
    rw [List.flatMap_cons, ih fun y hy => hl y (List.mem_cons_of_mem _ hy)]
    unfold onceOrTwice messages
    rw [List.map_cons, List.flatMap_cons]
    congr 1
    by_cases hf : BufferedWrite.FirstEndsEarly x.chain x.answers
    · rw [q1 hf]; simp [hf]
    · rw [q2 hf]; simp [hf]

end Cio.StreamSocket

namespace Cio.Echo
open BufferedRead (UAct Handler Job World Call)
open StreamSocket (Sys Ev Write step Allowed onceOrTwice messages)
open BufferedWrite (flat)

variable {unit : Nat} {quiet c : Bool} {mem : List UInt8} {p : Phase} {s : Sys}

/-- Every write of the server is one of exactly `unit` bytes. -/
theorem asks_units (hmem : mem ≠ []) (hu : unit ≤ mem.length) (h : Reach unit quiet c mem p s) : ∀ ch ∈ s.writes.map Write.chain, (flat ch).length = unit := by
  induction h with
  | init => exact fun ch hch => nomatch hch
  | @step p p' s s' e h ha hs hp ih =>
    have i := (reach_both hmem hu h).2
    rcases StreamSocket.chains_step hs with q | ⟨ch, he, q⟩
    · rw [q]; exact ih
    · rw [q]
      intro c' hc'
      rcases List.mem_append.1 hc' with g | g
      · exact ih c' g
      · rw [List.mem_singleton.1 g]
        subst he
        unfold next at hp
        dsimp only at hp
        split at hp
        · next d =>
          split at hp
          · next hch =>
            obtain ⟨t1, t2⟩ := i.toWrite d rfl
            rw [hch, t1]
            simp [flat, Nat.min_eq_left t2]
          · cases hp
        · cases hp

/-- The parts of what the server has sent: `good` was consumed, the rest belongs to the next unit. -/
theorem parts (hmem : mem ≠ []) (hu : unit ≤ mem.length) (h : Reach unit quiet c mem p s) :
    ∃ good part, (∀ x ∈ good, x ∈ s.done ∧ ToldSuccess x) ∧ good.flatMap Write.asked = s.br.consumed ∧
      s.sock.outgoing = good.flatMap (fun x => x.world.wire) ++ part ∧ part <+: s.br.rb.unread.take unit ++ s.br.rb.unread.take unit ∧ (p = .reading → part = [] ∧ s.done = good) := by
  obtain ⟨hr, i⟩ := reach_both hmem hu h
  obtain ⟨w1, w2, -⟩ := StreamSocket.writes_exact hmem hr
  obtain ⟨good, rest, g1, g2, g3, g4⟩ := i.hist
  have none_cur : p ≠ .writing → s.cur = none := fun hp => by
    cases hx : s.cur with
    | none => rfl
    | some x => exact absurd (i.cur.1 (by rw [hx]; rfl)) hp
  have single : ∀ x, x ∈ s.writes → x.chain = [⟨elem, s.br.rb.unread.take unit⟩] → ([x].flatMap fun x => x.world.wire) <+: s.br.rb.unread.take unit ++ s.br.rb.unread.take unit := fun x hx hch => by
    have := (w2 x hx).1
    unfold Write.asked at this
    rw [hch] at this
    simpa [flat] using this
  have inDone : ∀ x, x ∈ rest → x ∈ s.writes := fun x hx => List.mem_append_left _ (by rw [g1]; exact List.mem_append_right _ hx)
  refine ⟨good, (rest ++ s.cur.toList).flatMap (fun x => x.world.wire), fun x hx => ⟨by rw [g1]; exact List.mem_append_left _ hx, g2 x hx⟩, g3, ?_, ?_, ?_⟩
  · rw [w1]
    unfold StreamSocket.Sys.writes
    rw [g1, List.append_assoc, List.flatMap_append]
  · cases p with
    | writing =>
      have g4 : rest = [] := g4
      obtain ⟨x, hx⟩ := Option.isSome_iff_exists.1 (i.cur.2 rfl)
      rw [g4, hx]
      exact single x (List.mem_append_right _ (by rw [hx]; exact List.mem_singleton_self x)) ((i.writing rfl).2 x hx)
    | toConsume =>
      obtain ⟨x, e1, -, e3⟩ := g4
      rw [none_cur (fun q => by cases q), e1]
      exact single x (inDone x (by rw [e1]; exact List.mem_singleton_self x)) e3
    | stopped =>
      rw [none_cur (fun q => by cases q)]
      rcases g4 with ⟨e1, -⟩ | ⟨x, e1, e3, -⟩
      · rw [e1]; exact List.nil_prefix
      · rw [e1]; exact single x (inDone x (by rw [e1]; exact List.mem_singleton_self x)) e3
    | start => rw [none_cur (fun q => by cases q), show rest = [] from g4]; exact List.nil_prefix
    | reading => rw [none_cur (fun q => by cases q), show rest = [] from g4]; exact List.nil_prefix
    | toWrite d => rw [none_cur (fun q => by cases q), show rest = [] from g4]; exact List.nil_prefix
    | toRead => rw [none_cur (fun q => by cases q), show rest = [] from g4]; exact List.nil_prefix
  · intro hp
    subst hp
    have g4 : rest = [] := g4
    rw [none_cur (fun q => by cases q), g4, g1, g4]
    exact ⟨rfl, List.append_nil _⟩

/-- C121: whatever `sendmsg` does, the client gets back its own units in the order in which it sent them, none left out and none changed, each once or twice, and behind them a beginning of one
or two copies of its next unit. -/
theorem echoes_once_or_twice (hmem : mem ≠ []) (hu : unit ≤ mem.length) (h : Reach unit quiet c mem p s) :
    ∃ (us : List (List UInt8 × Bool)) (nxt part : List UInt8), (∀ u ∈ us, u.1.length = unit) ∧ nxt.length ≤ unit ∧ us.flatMap (·.1) ++ nxt <+: Socket.sent s.sock.log ∧
      s.sock.outgoing = onceOrTwice us ++ part ∧ part <+: nxt ++ nxt := by
  obtain ⟨hr, i⟩ := reach_both hmem hu h
  obtain ⟨good, part, h1, h2, h3, h4, -⟩ := parts hmem hu h
  obtain ⟨r1, -, -⟩ := StreamSocket.reads_what_peer_sent hmem hr
  refine ⟨messages good, s.br.rb.unread.take unit, part, ?_, by rw [List.length_take]; exact Nat.min_le_left _ _, ?_, ?_, h4⟩
  · intro u hu'
    obtain ⟨x, hx, e⟩ := List.mem_map.1 hu'
    rw [← e]
    exact asks_units hmem hu h x.chain (List.mem_map.2 ⟨x, List.mem_append_left _ (h1 x hx).1, rfl⟩)
  · rw [StreamSocket.messages_asked, h2]
    exact ((List.prefix_append_right_inj _).2 (List.take_prefix _ _)).trans r1
  · rw [h3, StreamSocket.wires_messages hmem hr good fun x hx => ⟨List.mem_append_left _ (h1 x hx).1, (h1 x hx).2.elim fun ch hch => ⟨ch, List.mem_of_getLast? hch⟩⟩]

/-- C121: and when the server waits for more and everything that arrived has been handed to it, these are all complete units the client has sent. -/
theorem echoes_all_once_or_twice (hmem : mem ≠ []) (hu : unit ≤ mem.length) (h : Reach unit quiet c mem p s) (hst : s.sock.stack = []) (hp : p = .reading) (hin : s.sock.incoming = []) :
    ∃ us : List (List UInt8 × Bool), (∀ u ∈ us, u.1.length = unit) ∧ us.flatMap (·.1) = (Socket.sent s.sock.log).take (unit * ((Socket.sent s.sock.log).length / unit)) ∧
      s.sock.outgoing = onceOrTwice us := by
  obtain ⟨hr, i⟩ := reach_both hmem hu h
  obtain ⟨good, part, h1, h2, h3, -, h5⟩ := parts hmem hu h
  have hlt : s.br.rb.unread.length < unit := by
    rcases at_rest hmem hu h hst with q | ⟨-, -, q⟩ | ⟨q, -⟩ | ⟨q, -⟩
    · rw [hp] at q; cases q
    · exact q
    · rw [hp] at q; cases q
    · rw [hp] at q; cases q
  have hcl : s.br.closed = false := by
    cases hx : s.br.closed with
    | false => rfl
    | true => have := i.closed hx; rw [hp] at this; cases this
  obtain ⟨-, r2, -⟩ := StreamSocket.reads_what_peer_sent hmem hr
  have hsent := r2 hcl
  rw [hin, List.append_nil] at hsent
  refine ⟨messages good, ?_, ?_, ?_⟩
  · intro u hu'
    obtain ⟨x, hx, e⟩ := List.mem_map.1 hu'
    rw [← e]
    exact asks_units hmem hu h x.chain (List.mem_map.2 ⟨x, List.mem_append_left _ (h1 x hx).1, rfl⟩)
  · obtain ⟨k, hk⟩ := i.units
    have hq : unit * ((Socket.sent s.sock.log).length / unit) = s.br.consumed.length := by
      rw [← hsent, List.length_append, hk, Nat.mul_add_div (by omega), Nat.div_eq_of_lt hlt, Nat.add_zero]
    rw [StreamSocket.messages_asked, h2, hq, ← hsent, List.take_left]
  · rw [h3, (h5 hp).1, List.append_nil, StreamSocket.wires_messages hmem hr good fun x hx => ⟨List.mem_append_left _ (h1 x hx).1, (h1 x hx).2.elim fun ch hch => ⟨ch, List.mem_of_getLast? hch⟩⟩]

/-- Twice does occur. -/
example : ∃ p s, Reach 6 true false (List.replicate 8 0) p s ∧ s.sock.outgoing = onceOrTwice [([1, 2, 3, 4, 5, 6], true)] := by
  obtain ⟨p, s, h1, -, h2, -⟩ := bytes_echoed_twice
  exact ⟨p, s, h1, h2⟩

end Cio.Echo
