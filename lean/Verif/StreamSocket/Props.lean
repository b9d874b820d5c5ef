import Verif.StreamSocket.StepInv
/-
C65: a buffered stream on a Linux socket.

`Reach quiet H c mem s`: a stream with the read buffer `mem` and read handlers behaving as `H`, on a socket with (`c = true`) or without a close
timeout, can get into the state `s`.  `s.sock.log` is the history of the socket: what the peer sent (`Socket.sent`), handler calls, closing; `s.sock.outgoing`
what the operating system accepted for the peer; `s.br.calls` the calls of the application's read handler, `s.writes` the application's writes.
-/
namespace Cio.StreamSocket
open BufferedRead (UAct Handler World Call)
open BufferedWrite (Elem Resp flat WritesExactly FirstEndsEarly)
open Socket (St Obs)

/-- All writes of the application, in order. -/
def Sys.writes (s : Sys) : List Write := s.done ++ s.cur.toList

/-! ### Reading -/

/-- C65: the application sees what the peer sent: what it has consumed, and what is in the read buffer, is the beginning of what the peer sent;
as long as the stream is open, it is all of it but what the kernel still holds.  Each handler is given the piece behind what was consumed then. -/
theorem reads_what_peer_sent {quiet : Bool} {H : Handler} {c : Bool} {mem : List UInt8} (hmem : mem ≠ []) {s : Sys} (h : Reach quiet H c mem s) :
    s.br.consumed ++ s.br.rb.unread <+: Socket.sent s.sock.log ∧
      (s.br.closed = false → s.br.consumed ++ s.br.rb.unread ++ s.sock.incoming = Socket.sent s.sock.log) ∧
      ∀ x ∈ s.br.calls, x.num ≤ x.view.length ∧ x.consumed ++ x.view <+: Socket.sent s.sock.log := by
  have i := reach_inv hmem h
  have hm := reach_misuse h
  obtain ⟨r1, -⟩ := BufferedRead.read_stream_preserved H mem s.br hmem i.brReach hm
  obtain ⟨-, -, t1, t2, -⟩ := Socket.reads_truthful_partial (sockReach i.sock)
  rw [← i.received] at t1 t2
  rw [r1]
  refine ⟨t1, fun hc => t2 (i.open_alive hc).1, fun x hx => ?_⟩
  obtain ⟨n1, -⟩ := BufferedRead.read_handler_sees_stream H mem s.br hmem i.brReach hm x hx
  obtain ⟨⟨g1, -⟩, g4, -⟩ := i.br.core.calls x hx
  refine ⟨n1, ?_⟩
  rw [g1]
  exact g4.trans t1

/-- C65: errors reported by reads are true.  A handler that is told of the end of the stream has been given every byte the peer ever sends, and the peer
has closed its side; any other error is one the operating system reported, or the message is longer than the read buffer. -/
theorem read_errors_truthful {quiet : Bool} {H : Handler} {c : Bool} {mem : List UInt8} (hmem : mem ≠ []) {s : Sys} (h : Reach quiet H c mem s) {x : Call} (hx : x ∈ s.br.calls)
    (he : x.err ≠ SUCCESS) :
    x.num = 0 ∧ ((x.err = EOF ∧ .peerClosed ∈ s.sock.log ∧ x.consumed ++ x.view = Socket.sent s.sock.log) ∨
      (x.err < 0 ∧ ∃ t, .readDone t x.err [] ∈ s.sock.log) ∨
      (x.err = MESSAGE_TOO_LONG ∧ x.view.length = mem.length ∧ ∃ d, x.job = .until d ∧ ∀ k, ¬ d <:+ x.view.take k)) := by
  have i := reach_inv hmem h
  have hm := reach_misuse h
  obtain ⟨a1, a2⟩ := BufferedRead.read_error_truthful H mem s.br hmem i.brReach hm x hx he
  refine ⟨a1, ?_⟩
  obtain ⟨⟨g1, -⟩, -, -⟩ := i.br.core.calls x hx
  rcases a2 with a2 | a2
  · obtain ⟨t, ht⟩ := i.errs _ a2
    obtain ⟨-, -, -, -, t5⟩ := Socket.reads_truthful_partial (sockReach i.sock)
    obtain ⟨p, q, hpq⟩ := List.append_of_mem ht
    rcases t5 p q t x.err [] hpq with ⟨b1, -⟩ | ⟨b1, -⟩ | ⟨b1, -⟩
    · exact absurd b1 he
    · obtain ⟨c1, c2⟩ := i.eofCalls x hx b1
      exact Or.inl ⟨b1, c1, g1.trans c2⟩
    · exact Or.inr (Or.inl ⟨b1, t, ht⟩)
  · exact Or.inr (Or.inr a2)

/-! ### Writing -/

/-- C65, partial: what the operating system gets for the peer is what the application's writes have put on the wire, one write after the other; each write puts
a beginning of its chain there, the whole chain if its handler is told of success, and calls its handler exactly once when it is over.
Missing: writes whose first `sendmsg` ends within the last element, or that must wait (`EAGAIN`) although no element but the last has bytes; see
`one_element_sent_twice`. -/
theorem writes_reach_peer_partial {quiet : Bool} {H : Handler} {c : Bool} {mem : List UInt8} (hmem : mem ≠ []) {s : Sys} (h : Reach quiet H c mem s)
    (hf : ∀ x ∈ s.writes, FirstEndsEarly x.chain x.answers) :
    s.sock.outgoing = s.writes.flatMap (fun x => x.world.wire) ∧ (∀ x ∈ s.writes, WritesExactly x.chain x.world) ∧
      (∀ x ∈ s.done, x.world.phase = .idle) ∧ ∀ x, s.cur = some x → x.world.phase ≠ .idle := by
  have i := reach_inv hmem h
  refine ⟨?_, fun x hx => ?_, fun x hx => (i.done x hx).2, fun x hx => (i.cur x hx).2⟩
  · rw [i.out]
    unfold Sys.writes wires
    rw [List.flatMap_append]
    cases s.cur with
    | none => rfl
    | some x => show _ ++ x.world.wire = _ ++ (x.world.wire ++ []); rw [List.append_nil]
  · have hok : x.Ok := by
      rcases List.mem_append.1 hx with g | g
      · exact (i.done x g).1
      · exact (i.cur x (Option.mem_toList.1 g)).1
    exact BufferedWrite.write_exactly_partial x.chain hok.2.2 x.answers hok.2.1 (hf x hx) x.world hok.1

/-- The bytes a write is to put on the wire. -/
def Write.asked (x : Write) : List UInt8 := flat x.chain

/-- C65: if all writes were successful, the peer gets exactly what was asked to be written, in order. -/
theorem all_writes_successful_partial {quiet : Bool} {H : Handler} {c : Bool} {mem : List UInt8} (hmem : mem ≠ []) {s : Sys} (h : Reach quiet H c mem s)
    (hf : ∀ x ∈ s.writes, FirstEndsEarly x.chain x.answers) (hcur : s.cur = none) (hok : ∀ x ∈ s.done, ∃ ch, (SUCCESS, ch) ∈ x.world.calls) :
    s.sock.outgoing = s.done.flatMap Write.asked := by
  obtain ⟨w1, w2, w3, -⟩ := writes_reach_peer_partial hmem h hf
  have hw : s.writes = s.done := by unfold Sys.writes; rw [hcur]; exact List.append_nil _
  rw [w1, hw]
  rw [hw] at w2
  clear w1 hf hcur hw
  generalize s.done = l at w2 w3 hok
  induction l with
  | nil => rfl
  | cons x l ih =>
    rw [List.flatMap_cons, List.flatMap_cons, ih (fun y hy => w2 y (List.mem_cons_of_mem _ hy)) (fun y hy => w3 y (List.mem_cons_of_mem _ hy)) (fun y hy => hok y (List.mem_cons_of_mem _ hy))]
    obtain ⟨-, -, q⟩ := w2 x List.mem_cons_self
    obtain ⟨ch, hch⟩ := hok x List.mem_cons_self
    rcases q (w3 x List.mem_cons_self) with ⟨e, c', q1, -, q3⟩ | ⟨q1, -⟩
    · rw [q1] at hch
      simp only [List.mem_singleton, Prod.mk.injEq] at hch
      rw [q3 hch.1.symm]
      rfl
    · rw [q1] at hch; cases hch

/-! ### The socket is used as it wants to be used -/

/-- C65: the stream keeps the rules of the socket (one read at a time, into a buffer that has room, one write at a time, nothing after closing), so that its guarantees
hold: no memory is used after the close hook, the descriptor is closed at most once and the close hook called at most once, and only after the application closed the stream. -/
theorem socket_used_properly {quiet : Bool} {H : Handler} {c : Bool} {mem : List UInt8} (hmem : mem ≠ []) {s : Sys} (h : Reach quiet H c mem s) :
    Socket.Reach Socket.Rules c s.sock ∧ s.sock.ub = false ∧ s.br.ub = false ∧ s.sock.log.count .fdClosed ≤ 1 ∧ s.sock.log.count .hook ≤ 1 ∧
      (.hook ∈ s.sock.log → s.br.closed = true) ∧ (s.br.closed = true ↔ .closeCalled ∈ s.sock.log) ∧
      (s.br.closed = true → .hook ∈ s.sock.log ∨ (c = true ∧ s.sock.timerArmed = true)) := by
  have i := reach_inv hmem h
  have hk := sockReach i.sock
  obtain ⟨a1, a2, a3, -, a5⟩ := Socket.closed_once_partial hk
  refine ⟨hk, a1, i.br.core.ub, a2, a3, fun g => ?_, i.closed, fun g => ?_⟩
  · obtain ⟨p, q, e, hc, -⟩ := a5 g
    exact i.closed.2 (by rw [e]; exact List.mem_append_left _ (List.mem_append_left _ hc))
  · obtain ⟨hb, ho, -, -⟩ := Socket.reach_inv hk
    rcases Socket.close_completes_partial hk (i.closed.1 g) with q | ⟨q, -⟩
    · exact Or.inl q
    · by_cases hh : .hook ∈ s.sock.log
      · exact Or.inl hh
      · right
        refine ⟨?_, q⟩
        cases hc : c with
        | true => rfl
        | false =>
          subst hc
          exact absurd q (no_timer hk)
where
  no_timer {k : St} (hk : Socket.Reach Socket.Rules false k) : ¬ k.timerArmed = true := by
    have : k.closeTimeout = false ∧ k.timerArmed = false := by
      induction hk with
      | init => exact ⟨rfl, rfl⟩
      | step h hr hs ih =>
        obtain ⟨hb, -⟩ := Socket.reach_inv h
        have ht := Socket.step_trans hb hr hs
        cases ht <;> simp_all
    rw [this.2]; simp

end Cio.StreamSocket
