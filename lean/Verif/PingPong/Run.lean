import Verif.PingPong.Net
/-
C116: the ping-pong comes to its end.
-/
namespace Cio.PingPong
open BufferedRead (UAct Handler Job World Call)
open StreamSocket (Sys Ev Write step Allowed follow settle answer)
open BufferedWrite (FirstEndsEarly flat)
open Echo (ToldSuccess elem)

variable {quiet ct : Bool} {memc mems hello : List UInt8} {max : Nat} {x : Pair}

/-- Nothing happens by itself any more: both programs are back in the event loop, and unless the connection is closed the kernels have handed over all that arrived, and everything sent has arrived. -/
structure Quiescent (x : Pair) : Prop where
  c : x.c.sock.stack = []
  s : x.s.sock.stack = []
  toC : x.c.br.closed = false → x.c.sock.incoming = [] ∧ Socket.sent x.c.sock.log = x.s.sock.outgoing
  toS : x.s.br.closed = false → x.s.sock.incoming = [] ∧ Socket.sent x.s.sock.log = x.c.sock.outgoing

/-- C116: client and server never both wait for the other.
Missing: sends that end within a message, or that find the socket's buffer full at once. -/
theorem no_deadlock_partial (hne : hello ≠ []) (huc : hello.length ≤ memc.length) (hus : hello.length ≤ mems.length) (h : Together hello max quiet ct memc mems x) (hf : AllEarly x)
    (hq : Quiescent x) : ¬ (x.pc = .reading ∧ x.ps = .reading) := by
  rintro ⟨hpc, hps⟩
  have hpos : 0 < hello.length := List.length_pos_iff.2 hne
  have hc : memc ≠ [] := fun q => by rw [q] at huc; exact absurd huc (by simp; omega)
  have hs : mems ≠ [] := fun q => by rw [q] at hus; exact absurd hus (by simp; omega)
  obtain ⟨r1, r2⟩ := h.reach
  obtain ⟨q1, q2⟩ := hq.toC ((reach_both hc huc r1).2.open' (by rw [hpc]; intro q; cases q))
  obtain ⟨q3, q4⟩ := hq.toS (by
    cases hx : x.s.br.closed with
    | false => rfl
    | true => have := (Echo.reach_both hs hus r2).2.closed hx; rw [hps] at this; cases this)
  have o1 := congrArg List.length (sends_all_partial hc huc r1 hf.1 hq.c hpc q1)
  have o2 := congrArg List.length (Echo.echoes_all_partial hs hus r2 hf.2 hq.s hps q3)
  rw [q2, List.length_append, List.length_take] at o1
  rw [q4, List.length_take] at o2
  have k1 : hello.length * (x.s.sock.outgoing.length / hello.length) ≤ x.s.sock.outgoing.length := Nat.mul_div_le _ _
  rw [Nat.min_eq_left k1] at o1
  have hdiv : hello.length * (x.c.sock.outgoing.length / hello.length) = x.c.sock.outgoing.length := by
    refine Nat.mul_div_cancel' ?_
    rw [o1]
    exact (Nat.dvd_add_right (Nat.dvd_refl _)).2 ⟨_, rfl⟩
  rw [hdiv, Nat.min_self] at o2
  rw [o2, hdiv] at o1
  omega

/-- The only error reads are told of is the end of the stream. -/
def OnlyEof (x : Pair) : Prop := (∀ y ∈ x.c.br.calls, y.err ≠ SUCCESS → y.err = EOF) ∧ ∀ y ∈ x.s.br.calls, y.err ≠ SUCCESS → y.err = EOF

theorem eof_closed {H : Handler} {c : Bool} {mem : List UInt8} {s : Sys} (hmem : mem ≠ []) (h : StreamSocket.Reach quiet H c mem s) {y : Call} (hy : y ∈ s.br.calls) (he : y.err = EOF) : .peerClosed ∈ s.sock.log := by
  obtain ⟨-, q⟩ := StreamSocket.read_errors_truthful hmem h hy (by rw [he]; decide)
  rcases q with ⟨-, q, -⟩ | ⟨q, -⟩ | ⟨q, -⟩
  · exact q
  · rw [he] at q; exact absurd q (by decide)
  · rw [he] at q; exact absurd q (by decide)

/-- C116: if no read fails, the client is never told of an error: the server does not close before the client has. -/
theorem server_stays (huc : hello.length ≤ memc.length) (hus : hello.length ≤ mems.length) (hc : memc ≠ []) (hs : mems ≠ []) (h : Together hello max quiet ct memc mems x) (ho : OnlyEof x) :
    (∀ y ∈ x.c.br.calls, y.err = SUCCESS) ∧ (x.s.br.closed = true → x.c.br.closed = true) := by
  have second : ∀ {x : Pair}, Together hello max quiet ct memc mems x → OnlyEof x → x.s.br.closed = true → x.c.br.closed = true := by
    intro x h ho q
    obtain ⟨r1, r2⟩ := h.reach
    obtain ⟨z, hz, hze⟩ := (Echo.closes_on_error hs hus r2).1 q
    exact (h.net hc hs huc hus).finS (eof_closed hs (Echo.proper_user hs hus r2) hz (ho.2 z hz hze))
  refine ⟨?_, second h ho⟩
  induction h with
  | init => intro y hy; cases hy
  | @client x p' c' e h hn ha hst hp ih =>
    obtain ⟨r1, r2⟩ := h.reach
    have rc := proper_user hc huc r1
    have i := StreamSocket.reach_inv hc rc
    obtain ⟨c1, c2⟩ := sys_calls i ha hst
    have ho' : OnlyEof x := ⟨fun y hy => ho.1 y (c1.subset hy), ho.2⟩
    have ih := ih ho'
    rcases c2 with c2 | ⟨c2, -, c4⟩
    · intro y hy
      have hy : y ∈ c'.br.calls := hy
      rw [c2] at hy
      exact ih y hy
    · intro y hy
      refine Classical.byContradiction fun he => ?_
      have rc' : StreamSocket.Reach quiet (readHandler max) ct memc c' := proper_user hc huc (.step r1 ha hst hp)
      have hpc := c4.1 (eof_closed hc rc' hy (ho.1 y hy he))
      have := second h ho' ((h.net hc hs huc hus).finC hpc)
      rw [c2] at this; cases this
  | @server x p' s' e h hn ha hst hp ih =>
    obtain ⟨r1, r2⟩ := h.reach
    obtain ⟨c1, -⟩ := sys_calls (StreamSocket.reach_inv hs (Echo.proper_user hs hus r2)) ha hst
    exact ih ⟨ho.1, fun y hy => ho.2 y (c1.subset hy)⟩

/-- C116: when both programs have started and nothing happens any more, the client is done: it has read `max` times (once if `max` is 0), each time the greeting, and has closed; both sides have sent the
greeting exactly that often.
Missing: sends that end within a message, or that find the socket's buffer full at once; failing reads and writes. -/
theorem finishes_partial (hne : hello ≠ []) (huc : hello.length ≤ memc.length) (hus : hello.length ≤ mems.length) (h : Together hello max quiet ct memc mems x) (hf : AllEarly x)
    (hq : Quiescent x) (hpc : x.pc ≠ .start) (hps : x.ps ≠ .start) (hcur : x.c.cur = none ∧ x.s.cur = none) (hw : (∀ w ∈ x.c.done, ToldSuccess w) ∧ ∀ w ∈ x.s.done, ToldSuccess w) (ho : OnlyEof x) :
    x.c.br.closed = true ∧ x.c.br.calls.length = Nat.max 1 max ∧ (∀ y ∈ x.c.br.calls, y.err = SUCCESS ∧ y.view.take y.num = hello) ∧
      x.c.sock.outgoing = times (Nat.max 1 max) hello ∧ x.s.sock.outgoing = times (Nat.max 1 max) hello := by
  have hpos : 0 < hello.length := List.length_pos_iff.2 hne
  have hc : memc ≠ [] := fun q => by rw [q] at huc; exact absurd huc (by simp; omega)
  have hs : mems ≠ [] := fun q => by rw [q] at hus; exact absurd hus (by simp; omega)
  obtain ⟨r1, r2⟩ := h.reach
  obtain ⟨sv1, sv2⟩ := server_stays huc hus hc hs h ho
  have hclosed : x.c.br.closed = true := by
    rcases at_rest hc huc r1 hq.c with q | ⟨q, -⟩ | ⟨q, -⟩ | ⟨-, q | ⟨w, hw1, hw2⟩⟩
    · exact absurd q hpc
    · rcases Echo.at_rest hs hus r2 hq.s with g | ⟨g, -⟩ | ⟨g, -⟩ | ⟨-, g | ⟨w, hw1, hw2⟩⟩
      · exact absurd g hps
      · exact absurd ⟨q, g⟩ (no_deadlock_partial hne huc hus h hf hq)
      · have := (Echo.reach_both hs hus r2).2.cur.2 g
        rw [hcur.2] at this; cases this
      · exact sv2 g
      · exact absurd (hw.2 w hw1) hw2
    · have := (reach_both hc huc r1).2.cur.2 q
      rw [hcur.1] at this; cases this
    · exact q
    · exact absurd (hw.1 w hw1) hw2
  obtain ⟨f1, f2, f3, f4, f5⟩ := finished hc huc r1 hclosed sv1 hw.1
  have f6 := finished_sent_partial hc huc r1 hf.1 hclosed sv1 hw.1
  obtain ⟨⟨n, g1⟩, -, g3, -⟩ := only_greetings_partial hne huc hus h hf
  have o2 := (Echo.echoes_partial hs hus r2 hf.2).1
  have net := h.net hc hs huc hus
  have o2 := o2.trans net.toS
  have heq : x.s.sock.outgoing = x.c.sock.outgoing := o2.eq_of_length (Nat.le_antisymm o2.length_le (by rw [f6]; exact Nat.le_trans f5 net.toC.length_le))
  have hout : x.c.sock.outgoing = times (Nat.max 1 max) hello := by
    have hco : x.c.sock.outgoing <+: hello ++ x.c.sock.outgoing := by
      have := sends_partial hc huc r1 hf.1
      rw [← heq]
      rw [← heq] at this
      exact this.trans ((List.prefix_append_right_inj _).2 net.toC)
    refine (repeats (Nat.max 1 max) _ hco (by rw [f6, Nat.mul_comm])).eq_of_length ?_
    rw [f6, times_length, Nat.mul_comm]
  exact ⟨hclosed, f1, fun y hy => ⟨sv1 y hy, g3 y hy (sv1 y hy)⟩, hout, heq.trans hout⟩

end Cio.PingPong
