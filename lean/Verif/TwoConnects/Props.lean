import Verif.TwoConnects.Server
/-
C125: the two connects example.
-/
namespace Cio.TwoConnects
open BufferedRead (UAct Handler Job World Call)
open StreamSocket (Sys Ev Write step Allowed follow settle answer)
open BufferedWrite (FirstEndsEarly flat)
open Echo (ToldSuccess elem)
open PingPong (pings Arrives)

variable {quiet ct real : Bool} {memc mems hello : List UInt8} {x : Pair}

/-- Both sides use their streams as they want to be used. -/
theorem Together.both (hc : memc ≠ []) (hs : mems ≠ []) (hu : hello.length ≤ mems.length) (h : Together real hello quiet ct memc mems x) :
    (StreamSocket.Reach quiet noReads ct memc x.c ∧ CInv hello x.p x.c) ∧ StreamSocket.Reach quiet (serverReads hello.length) ct mems x.s ∧ SInv hello.length x.b x.s := by
  induction h with
  | init =>
    refine ⟨⟨.init, client_init hello ct memc ?_⟩, .init, server_init hello.length ct mems⟩
    cases real
    · exact Or.inr rfl
    · exact Or.inl rfl
  | @client x p' c' e h hn ha hst hp ih =>
    obtain ⟨⟨r, i⟩, r2⟩ := ih
    have i' := client_step i hst hp
    refine ⟨⟨.step r ha hst i'.misuse fun hcl _ => Or.inl ?_, i'⟩, r2⟩
    cases hx : c'.cur with
    | none => rfl
    | some y =>
      have h1 := i'.cur.1 (by rw [hx]; rfl)
      rw [i'.closed.1 hcl] at h1
      cases h1
  | @server x b' s' e h hr hn ha hst hp ih =>
    obtain ⟨r1, r, i⟩ := ih
    have i' := server_step hu (StreamSocket.reach_inv hs r) i hst hp
    exact ⟨r1, .step r ha hst i'.misuse fun _ _ => Or.inl i'.cur, i'⟩

structure Net (x : Pair) : Prop where
  toC : Socket.sent x.c.sock.log <+: x.s.sock.outgoing
  toS : Socket.sent x.s.sock.log <+: x.c.sock.outgoing
  finC : .peerClosed ∈ x.c.sock.log → x.s.br.closed = true
  finS : .peerClosed ∈ x.s.sock.log → x.c.br.closed = true
  endS : .peerClosed ∈ x.s.sock.log → Socket.sent x.s.sock.log = x.c.sock.outgoing

theorem Together.net (hc : memc ≠ []) (hs : mems ≠ []) (hu : hello.length ≤ mems.length) (h : Together real hello quiet ct memc mems x) : Net x := by
  induction h with
  | init => exact ⟨List.nil_prefix, List.nil_prefix, (fun q => nomatch q), (fun q => nomatch q), (fun q => nomatch q)⟩
  | @client x p' c' e h hn ha hst hp ih =>
    obtain ⟨⟨r1, -⟩, -, -⟩ := h.both hc hs hu
    have i := StreamSocket.reach_inv hc r1
    obtain ⟨a1, a2, a3, a4⟩ := PingPong.net_side i hn ha hst ih.toC ih.toS ih.finC ih.finS
    exact ⟨a1, a2, a3, a4, fun q => (ih.endS q).trans (WsTcp.closed_stays i ha hst (ih.finS q)).2.symm⟩
  | @server x b' s' e h hr hn ha hst hp ih =>
    obtain ⟨-, r2, -⟩ := h.both hc hs hu
    have i := StreamSocket.reach_inv hs r2
    obtain ⟨a1, a2, a3, a4⟩ := PingPong.net_side i hn ha hst ih.toS ih.toC ih.finS ih.finC
    refine ⟨a2, a1, a4, a3, fun q => ?_⟩
    obtain ⟨n1, n2, n3, n4⟩ := WsTcp.net_effect i ha hst
    cases hf : WsTcp.fromPeer e with
    | false =>
      have n2 := n2 hf
      show Socket.sent s'.sock.log = _
      rw [n2.1]
      exact ih.endS (n2.2.1 q)
    | true =>
      cases e with
      | peerSends d =>
        have n3 := n3 d rfl
        have := ih.endS (n3.2.1.1 q)
        have hn : Socket.sent x.s.sock.log ++ d <+: x.c.sock.outgoing := hn
        rw [this] at hn
        have hd : d = [] := by
          have := hn.length_le
          rw [List.length_append] at this
          exact List.length_eq_zero_iff.1 (by omega)
        show Socket.sent s'.sock.log = _
        rw [n3.1, this, hd, List.append_nil]
      | peerCloses =>
        show Socket.sent s'.sock.log = _
        rw [(n4 rfl).1]
        exact hn.2
      | _ => cases hf

/-- C125: a client makes at most one write, of the greeting; what it puts on the wire is a beginning of the greeting, or of two copies of it; if the write succeeds, the greeting, once, or twice if the first
`sendmsg` did not take all of it.  It closes its socket at most once, and not while it writes; if it was not connected it sends nothing. -/
theorem client_sends (hc : memc ≠ []) (hs : mems ≠ []) (hu : hello.length ≤ mems.length) (h : Together real hello quiet ct memc mems x) :
    x.c.writes.length ≤ 1 ∧ (∀ w ∈ x.c.writes, w.asked = hello) ∧ x.c.sock.outgoing <+: hello ++ hello ∧
      ((∀ w ∈ x.c.writes, FirstEndsEarly w.chain w.answers) → x.c.sock.outgoing <+: hello) ∧
      (∀ w ∈ x.c.done, ToldSuccess w → x.c.sock.outgoing = w.sends) ∧
      (x.c.br.closed = true → x.c.cur = none) ∧ x.c.sock.log.count .fdClosed ≤ 1 ∧ x.c.sock.log.count .hook ≤ 1 ∧ (.hook ∈ x.c.sock.log → x.c.br.closed = true) ∧
      (real = false → x.c.sock.outgoing = []) := by
  obtain ⟨⟨r, i⟩, -⟩ := h.both hc hs hu
  obtain ⟨-, -, -, u1, u2, u3, -, -⟩ := StreamSocket.socket_used_properly hc r
  obtain ⟨w1, w2, w3, w4⟩ := StreamSocket.writes_exact hc r
  have hask : ∀ w ∈ x.c.writes, w.asked = hello := fun w hw => by unfold StreamSocket.Write.asked; rw [i.chain w hw]; simp [flat]
  have hone : x.c.writes.length ≤ 1 := by
    unfold StreamSocket.Sys.writes
    cases hx : x.c.cur with
    | none => simpa using i.one
    | some y => rw [i.none' (Or.inr (i.cur.1 (by rw [hx]; rfl)))]; simp
  refine ⟨hone, hask, ?_, ?_, ?_, ?_, u1, u2, u3, ?_⟩
  · rw [w1]
    match hl : x.c.writes, hone with
    | [], _ => exact List.nil_prefix
    | [y], _ =>
      have hy : y ∈ x.c.writes := by rw [hl]; exact List.mem_singleton_self y
      have := (w2 y hy).1
      rw [hask y hy] at this
      simpa using this
    | _ :: _ :: _, q => exact absurd q (by simp)
  · intro hf
    rw [w1]
    match hl : x.c.writes, hone with
    | [], _ => exact List.nil_prefix
    | [y], _ =>
      have hy : y ∈ x.c.writes := by rw [hl]; exact List.mem_singleton_self y
      have := (w2 y hy).2.1 (hf y hy)
      rw [hask y hy] at this
      simpa using this
    | _ :: _ :: _, q => exact absurd q (by simp)
  · intro w hw ⟨ch, ht⟩
    have hwr : w ∈ x.c.writes := List.mem_append_left _ hw
    obtain ⟨q1, q2⟩ := (w2 w hwr).2.2 ch (List.mem_of_getLast? ht)
    rw [w1]
    match hl : x.c.writes, hone with
    | [], _ => rw [hl] at hwr; cases hwr
    | [y], _ =>
      rw [hl, List.mem_singleton] at hwr
      subst hwr
      rw [List.flatMap_cons, List.flatMap_nil, List.append_nil]
      unfold StreamSocket.Write.sends
      split
      · rename_i hf; exact q1 hf
      · rename_i hf; exact q2 hf
    | _ :: _ :: _, q => exact absurd q (by simp)
  · intro q
    cases hx : x.c.cur with
    | none => rfl
    | some y =>
      have h1 := i.cur.1 (by rw [hx]; rfl)
      rw [i.closed.1 q] at h1
      cases h1
  · intro hr
    subst hr
    have : (x.p = .toClose ∨ x.p = .closed) ∧ x.c.writes = [] := by
      clear w1 w2 w3 w4 hask hone u1 u2 u3 r i
      induction h with
      | init => exact ⟨Or.inl rfl, rfl⟩
      | @client x p' c' e h hn ha hst hp ih =>
        obtain ⟨ih1, ih2⟩ := ih
        obtain ⟨⟨-, i⟩, -⟩ := h.both hc hs hu
        have hcur : x.c.cur = none ∧ x.c.done = [] := by
          unfold StreamSocket.Sys.writes at ih2
          obtain ⟨q1, q2⟩ := List.append_eq_nil_iff.1 ih2
          refine ⟨?_, q1⟩
          cases hx : x.c.cur with
          | none => rfl
          | some y => rw [hx] at q2; cases q2
        have hw : c'.writes = [] := by
          have := StreamSocket.chains_step hst
          rw [ih2] at this
          rcases this with q | ⟨ch, q, -⟩
          · exact List.map_eq_nil_iff.1 q
          · subst q
            unfold next at hp
            dsimp only at hp
            rw [if_neg (by rintro ⟨g, -⟩; rcases ih1 with ih1 | ih1 <;> rw [ih1] at g <;> cases g)] at hp
            cases hp
        refine ⟨?_, hw⟩
        have hd : c'.done = [] := by unfold StreamSocket.Sys.writes at hw; exact (List.append_eq_nil_iff.1 hw).1
        cases e with
        | peerSends d => injection hp with hp; subst hp; exact ih1
        | peerCloses => injection hp with hp; subst hp; exact ih1
        | timeout => injection hp with hp; subst hp; exact ih1
        | loop os => injection hp with hp; subst hp; exact ih1
        | readable r => injection hp with hp; subst hp; exact ih1
        | enter =>
          unfold next at hp; dsimp only at hp; split at hp
          · injection hp with hp; subst hp; exact ih1
          · cases hp
        | leave =>
          unfold next at hp; dsimp only at hp; split at hp
          · injection hp with hp; subst hp; exact ih1
          · cases hp
        | user a os =>
          unfold next at hp; dsimp only at hp; split at hp
          · injection hp with hp; subst hp; exact Or.inr rfl
          · cases hp
        | write chain =>
          unfold next at hp
          dsimp only at hp
          rw [if_neg (by rintro ⟨g, -⟩; rcases ih1 with ih1 | ih1 <;> rw [ih1] at g <;> cases g)] at hp
          cases hp
        | send r =>
          unfold next at hp; dsimp only at hp; rw [hd, hcur.2, if_pos rfl] at hp
          injection hp with hp; subst hp; exact ih1
        | writable er =>
          unfold next at hp; dsimp only at hp; rw [hd, hcur.2, if_pos rfl] at hp
          injection hp with hp; subst hp; exact ih1
      | @server x b' s' e h hr hn ha hst hp ih => cases hr
    rw [w1, this.2]
    rfl

/-- C125: every message the server reads is the greeting, and it reads at most two on a connection; it closes the connection as soon as it is told of its end or of an error, and not before. -/
theorem server_reads (hne : hello ≠ []) (hc : memc ≠ []) (hu : hello.length ≤ mems.length) (h : Together real hello quiet ct memc mems x) :
    (∀ y ∈ x.s.br.calls, y.err = SUCCESS → y.view.take y.num = hello) ∧ x.s.br.consumed = PingPong.times (pings x.s.br) hello ∧ pings x.s.br ≤ 2 ∧
      (x.s.br.closed = true ↔ ∃ y ∈ x.s.br.calls, y.err ≠ SUCCESS) ∧ x.s.sock.outgoing = [] ∧ x.s.sock.log.count .fdClosed ≤ 1 ∧ x.s.sock.log.count .hook ≤ 1 := by
  have hpos : 0 < hello.length := List.length_pos_iff.2 hne
  have hs : mems ≠ [] := PingPong.nonempty hne hu
  obtain ⟨-, r, i⟩ := h.both hc hs hu
  have net := h.net hc hs hu
  obtain ⟨-, -, out, -⟩ := client_sends hc hs hu h
  obtain ⟨rd1, -, rd⟩ := StreamSocket.reads_what_peer_sent hs r
  obtain ⟨-, -, -, u1, u2, -⟩ := StreamSocket.socket_used_properly hs r
  have out2 : x.c.sock.outgoing <+: PingPong.times 2 hello := by
    rw [PingPong.times_succ, PingPong.times_succ]; simpa [PingPong.times] using out
  have hcons : x.s.br.consumed <+: PingPong.times 2 hello := ((List.prefix_append _ _).trans rd1).trans (net.toS.trans out2)
  have hle := hcons.length_le
  rw [i.count, PingPong.times_length, Nat.mul_comm] at hle
  have hp2 : pings x.s.br ≤ 2 := Nat.le_of_mul_le_mul_right hle hpos
  refine ⟨fun y hy he => ?_, ?_, hp2, i.errs, ?_, u1, u2⟩
  · obtain ⟨n1, n2, n3⟩ := i.calls y hy he
    rw [n1]
    exact PingPong.piece out2 ((rd y hy).2.trans net.toS) n3 n2
  · have h1 : PingPong.times (pings x.s.br) hello <+: PingPong.times 2 hello := by
      obtain ⟨k, hk⟩ : ∃ k, 2 = pings x.s.br + k := ⟨2 - pings x.s.br, by omega⟩
      rw [hk, ← PingPong.times_add]
      exact List.prefix_append _ _
    refine (List.prefix_of_prefix_length_le hcons h1 ?_).eq_of_length ?_
    · rw [i.count, PingPong.times_length, Nat.mul_comm]
    · rw [i.count, PingPong.times_length, Nat.mul_comm]
  · rw [PingPong.out_wires (StreamSocket.reach_inv hs r)]
    unfold StreamSocket.Sys.writes
    rw [i.cur, i.done]
    rfl

/-- C125: if the client's write was successful, then when the server is told that the connection has ended it has read the greeting, once, or twice if the first `sendmsg` of the client did not take all
of it; nothing is left over. -/
theorem server_reads_all (hne : hello ≠ []) (hc : memc ≠ []) (hu : hello.length ≤ mems.length) (h : Together real hello quiet ct memc mems x)
    {w : Write} (hw : w ∈ x.c.done) (ht : ToldSuccess w) {y : Call} (hy : y ∈ x.s.br.calls) (he : y.err = EOF) :
    x.s.br.consumed = w.sends ∧ y.view = [] ∧ (pings x.s.br = 1 ∨ pings x.s.br = 2) ∧ (FirstEndsEarly w.chain w.answers → pings x.s.br = 1) := by
  have hpos : 0 < hello.length := List.length_pos_iff.2 hne
  have hs : mems ≠ [] := PingPong.nonempty hne hu
  obtain ⟨-, r, i⟩ := h.both hc hs hu
  have net := h.net hc hs hu
  obtain ⟨-, ask, -, -, out, -⟩ := client_sends hc hs hu h
  have out := out w hw ht
  have ask := ask w (List.mem_append_left _ hw)
  have hne' : y.err ≠ SUCCESS := by rw [he]; decide
  obtain ⟨-, q⟩ := StreamSocket.read_errors_truthful hs r hy hne'
  obtain ⟨l1, l2⟩ := i.last y hy hne'
  obtain ⟨q1, q2⟩ : .peerClosed ∈ x.s.sock.log ∧ y.consumed ++ y.view = Socket.sent x.s.sock.log := by
    rcases q with ⟨-, a, b⟩ | ⟨a, -⟩ | ⟨a, -⟩
    · exact ⟨a, b⟩
    · rw [he] at a; exact absurd a (by decide)
    · rw [he] at a; exact absurd a (by decide)
  have hall : x.s.br.consumed ++ y.view = w.sends := by rw [← l2, q2, net.endS q1, out]
  have hlen := congrArg List.length hall
  rw [List.length_append, i.count] at hlen
  have done : ∀ k, w.sends.length = hello.length * k → y.view = [] ∧ pings x.s.br = k := by
    intro k hk
    rw [hk] at hlen
    have hv : y.view.length = 0 := by
      have h1 : hello.length ∣ y.view.length := (Nat.dvd_add_right (Nat.dvd_mul_right hello.length (pings x.s.br))).1 ⟨k, hlen⟩
      exact Nat.eq_zero_of_dvd_of_lt h1 l1
    refine ⟨List.length_eq_zero_iff.1 hv, ?_⟩
    rw [hv, Nat.add_zero] at hlen
    exact Nat.eq_of_mul_eq_mul_left hpos hlen
  by_cases hf : FirstEndsEarly w.chain w.answers
  · have e : w.sends = hello := by unfold StreamSocket.Write.sends; rw [if_pos hf, ask]
    obtain ⟨d1, d2⟩ := done 1 (by rw [e, Nat.mul_one])
    rw [d1, List.append_nil] at hall
    exact ⟨hall, d1, Or.inl d2, fun _ => d2⟩
  · have e : w.sends = hello ++ hello := by unfold StreamSocket.Write.sends; rw [if_neg hf, ask]
    obtain ⟨d1, d2⟩ := done 2 (by rw [e, List.length_append]; omega)
    rw [d1, List.append_nil] at hall
    exact ⟨hall, d1, Or.inr d2, fun q => absurd q hf⟩

/-- C125, partial: on the connection of a client whose write was successful the server has read the greeting exactly once when it is told of the end.
Missing: writes whose first `sendmsg` does not take all of it, where the claim is false (`greeting_read_twice`). -/
theorem one_greeting_partial (hne : hello ≠ []) (hc : memc ≠ []) (hu : hello.length ≤ mems.length) (h : Together real hello quiet ct memc mems x)
    {w : Write} (hw : w ∈ x.c.done) (ht : ToldSuccess w) (hf : FirstEndsEarly w.chain w.answers) {y : Call} (hy : y ∈ x.s.br.calls) (he : y.err = EOF) : x.s.br.consumed = hello := by
  obtain ⟨a, -, -, d⟩ := server_reads_all hne hc hu h hw ht hy he
  rw [(server_reads hne hc hu h).2.1, d hf]
  unfold PingPong.times
  simp [PingPong.times]

end Cio.TwoConnects
