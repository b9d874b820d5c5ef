import Verif.WsTcp.Net
/-
C66: two WebSockets over two connected Linux sockets.

`Reach quiet E c mem n`: two WebSockets, side `i` with the environment `E i`, close timeout `c i` and read buffer `mem i`, can get into the state `n`.  `(n.sys i).writes` are the writes
of side `i` (each of them a frame or a part of one), `shown (E i) (n.sys i).br` what its application was shown.  `!i` is the other side.
-/
namespace Cio.WsTcp
open StreamSocket (Sys Write)
open BufferedWrite (FirstEndsEarly WritesExactly flat)
open WsStream (Env handler shown pieces0 codeOf)
open WsRecv (Out Seen seen outsOf streamOf onClose)
open WsRoundTrip (Out1 Sequence NoTextSent TextFine delivered wire)

variable {quiet : Bool} {E : Bool → Env} {c : Bool → Bool} {mem : Bool → List UInt8} {n : Net}

/-- The handler of this write was told of success. -/
def Succeeded (x : Write) : Prop := ∃ ch, (SUCCESS, ch) ∈ x.world.calls

/-- A side has asked for the beginning `bytes` to be written, in some number of writes, and has not gone on after a write that failed.  No write is one of those that
buffered_stream.c does not get right (see `StreamSocket.writes_reach_peer_partial`). -/
structure Asked (s : Sys) (bytes : List UInt8) : Prop where
  bytes : s.writes.flatMap Write.asked <+: bytes
  ok : ∀ x ∈ s.writes.dropLast, Succeeded x
  early : ∀ x ∈ s.writes, FirstEndsEarly x.chain x.answers

/-- All of `bytes` was asked to be written, and written. -/
structure AllWritten (s : Sys) (bytes : List UInt8) : Prop where
  bytes : s.writes.flatMap Write.asked = bytes
  ok : ∀ x ∈ s.writes, Succeeded x
  early : ∀ x ∈ s.writes, FirstEndsEarly x.chain x.answers

theorem mem_nonempty {i : Bool} (hmem : ∀ i, 125 ≤ (mem i).length) : mem i ≠ [] := fun g => by have := hmem i; rw [g] at this; exact absurd this (by decide)

theorem AllWritten.asked {s : Sys} {bytes : List UInt8} (h : AllWritten s bytes) : Asked s bytes :=
  ⟨by rw [h.bytes], fun x hx => h.ok x (List.dropLast_subset _ hx), h.early⟩

theorem succeeded_wire {x : Write} (hw : WritesExactly x.chain x.world) (hs : Succeeded x) : x.world.wire = x.asked := by
  obtain ⟨ch, hch⟩ := hs
  obtain ⟨-, w2, w3⟩ := hw
  have hid : x.world.phase = .idle := by
    cases hp : x.world.phase with
    | idle => rfl
    | first => rw [w2 (by rw [hp]; decide)] at hch; cases hch
    | more => rw [w2 (by rw [hp]; decide)] at hch; cases hch
  rcases w3 hid with ⟨e, ch', q1, -, q2⟩ | ⟨q1, -⟩
  · rw [q1, List.mem_singleton, Prod.mk.injEq] at hch
    exact q2 hch.1.symm
  · rw [q1] at hch; cases hch

theorem wires_prefix (l : List Write) (hw : ∀ x ∈ l, WritesExactly x.chain x.world) (hs : ∀ x ∈ l.dropLast, Succeeded x) :
    l.flatMap (fun x => x.world.wire) <+: l.flatMap Write.asked := by
  induction l with
  | nil => exact List.prefix_rfl
  | cons x l ih =>
    cases l with
    | nil =>
      rw [List.flatMap_cons, List.flatMap_cons, List.flatMap_nil, List.flatMap_nil, List.append_nil, List.append_nil]
      exact (hw x List.mem_cons_self).1
    | cons y l =>
      rw [List.flatMap_cons, List.flatMap_cons (f := Write.asked), succeeded_wire (hw x List.mem_cons_self) (hs x (by simp))]
      exact (List.prefix_append_right_inj _).2 (ih (fun z hz => hw z (List.mem_cons_of_mem _ hz)) (fun z hz => hs z (by rw [List.dropLast_cons_cons]; exact List.mem_cons_of_mem _ hz)))

theorem wires_all (l : List Write) (hw : ∀ x ∈ l, WritesExactly x.chain x.world) (hs : ∀ x ∈ l, Succeeded x) :
    l.flatMap (fun x => x.world.wire) = l.flatMap Write.asked := by
  induction l with
  | nil => rfl
  | cons x l ih =>
    rw [List.flatMap_cons, List.flatMap_cons (f := Write.asked), succeeded_wire (hw x List.mem_cons_self) (hs x List.mem_cons_self),
      ih (fun z hz => hw z (List.mem_cons_of_mem _ hz)) (fun z hz => hs z (List.mem_cons_of_mem _ hz))]

/-- What the operating system of a side has accepted. -/
theorem outgoing_of_writes (hmem : ∀ i, 125 ≤ (mem i).length) (h : Reach quiet E c mem n) (i : Bool) {bytes : List UInt8} :
    (Asked (n.sys i) bytes → (n.sys i).sock.outgoing <+: bytes) ∧ (AllWritten (n.sys i) bytes → (n.sys i).sock.outgoing = bytes) := by
  have hr := (end_reach (hmem i) ((reach_net hmem h).ends i)).1
  constructor
  · intro ha
    obtain ⟨w1, w2, -, -⟩ := StreamSocket.writes_reach_peer_partial (mem_nonempty hmem) hr ha.early
    rw [w1]
    exact (wires_prefix _ w2 ha.ok).trans ha.bytes
  · intro ha
    obtain ⟨w1, w2, -, -⟩ := StreamSocket.writes_reach_peer_partial (mem_nonempty hmem) hr ha.early
    rw [w1, wires_all _ w2 ha.ok, ha.bytes]

/-- The bytes the stream of one side has got are a beginning of what the other side's operating system has accepted; once all of that has been carried over and read, they are all of it. -/
theorem received_is_sent (hmem : ∀ i, 125 ≤ (mem i).length) (h : Reach quiet E c mem n) (i : Bool) :
    (n.sys !i).br.received <+: (n.sys i).sock.outgoing ∧
      ((n.sys !i).br.closed = false → n.flying i = [] → (n.sys !i).sock.incoming = [] → (n.sys !i).br.received = (n.sys i).sock.outgoing) := by
  have hn := reach_net hmem h
  have hr := (end_reach (hmem !i) (hn.ends !i)).1
  have hi := StreamSocket.reach_inv (mem_nonempty hmem) hr
  obtain ⟨-, -, t1, t2, -⟩ := Socket.reads_truthful_partial (StreamSocket.sockReach hi.sock)
  rw [← hi.received, hn.arrived i] at t1 t2
  refine ⟨t1.trans (List.take_prefix _ _), fun hcl hf hinc => ?_⟩
  have := t2 (hi.open_alive hcl).1
  rw [hinc, List.append_nil] at this
  rw [this, List.take_of_length_le]
  have h0 := congrArg List.length hf
  unfold Net.flying at h0
  rw [List.length_drop, List.length_nil] at h0
  omega

/-- C66: both sides are used properly whatever happens: the streams are not misused, no memory is used after it was given back, each descriptor is closed at most once and each close
hook is called at most once. -/
theorem both_sides_safe (hmem : ∀ i, 125 ≤ (mem i).length) (h : Reach quiet E c mem n) (i : Bool) :
    (n.sys i).br.misuse = false ∧ (n.sys i).br.refused = 0 ∧ (n.sys i).br.overwritten = 0 ∧ (n.sys i).br.ub = false ∧ (n.sys i).sock.ub = false ∧
      (n.sys i).sock.log.count .fdClosed ≤ 1 ∧ (n.sys i).sock.log.count .hook ≤ 1 := by
  obtain ⟨hr, xs, hx, -⟩ := end_reach (hmem i) ((reach_net hmem h).ends i)
  obtain ⟨a1, a2, a3, a4⟩ := WsStream.stream_used_properly (E i) (mem i) (hmem i) xs _ hx
  obtain ⟨-, b1, -, b2, b3, -⟩ := StreamSocket.socket_used_properly (mem_nonempty hmem) hr
  exact ⟨a1, a2, a3, a4, b1, b2, b3⟩

/-- What a side has been shown, in terms of the bytes its stream has got. -/
theorem shown_of_received (hmem : ∀ i, 125 ≤ (mem i).length) (h : Reach quiet E c mem n) (i : Bool) :
    ∃ xs, WsStream.Reach (E i) (mem i) xs (n.sys i).br ∧ WsStream.deliveries xs = pieces (n.sys i).sock.log ∧ (WsStream.deliveries xs).flatten = (n.sys i).br.received := by
  obtain ⟨-, xs, hx, hd⟩ := end_reach (hmem i) ((reach_net hmem h).ends i)
  exact ⟨xs, hx, hd, (WsStream.reach_inv (E i) (hmem i) hx).good.got⟩

/-- C66, partial: frames that belong to no text message.  At any moment, the application of the other side has seen a beginning of what was sent (then, if its transport failed, that);
once all was written, has arrived and has been read, all of it.  Missing: writes that buffered_stream.c does not get right (`Asked.early`), text (see `text_messages_arrive_partial`)
and close frames. -/
theorem binary_messages_arrive_partial (o : Endian.Order) (fromServer : Bool) (rng : Random.Rng) (cs : List Out1) (hok : ∀ c ∈ cs, c.Ok fromServer)
    (hs : Sequence none (cs.map Out1.frame)) (hb : NoTextSent none (cs.map Out1.frame)) :
    ∃ bytes, wire o fromServer rng cs = some bytes ∧
      ∀ (quiet : Bool) (E : Bool → Env) (c : Bool → Bool) (mem : Bool → List UInt8) (n : Net) (i : Bool), (∀ i, 125 ≤ (mem i).length) → Reach quiet E c mem n →
        (E !i).server = !fromServer → Asked (n.sys i) bytes →
        (∃ part, part <+: delivered none (cs.map Out1.frame) ∧
          (seen (shown (E !i) (n.sys !i).br) = part ∨ ∃ err ∈ (n.sys !i).br.transportErrs, seen (shown (E !i) (n.sys !i).br) = part ++ [.other (.fail (codeOf err))])) ∧
        (AllWritten (n.sys i) bytes → n.flying i = [] → (n.sys !i).sock.incoming = [] → (n.sys !i).br.waiting = true → (n.sys !i).br.closed = false →
          seen (shown (E !i) (n.sys !i).br) = delivered none (cs.map Out1.frame)) := by
  obtain ⟨bytes, h1, h2⟩ := WsStream.binary_sent_is_seen o fromServer rng cs hok hs hb
  refine ⟨bytes, h1, fun quiet E c mem n i hmem h hserver ha => ?_⟩
  obtain ⟨xs, x1, -, x2⟩ := shown_of_received hmem h (!i)
  obtain ⟨r1, r2⟩ := received_is_sent hmem h i
  obtain ⟨o1, o2⟩ := outgoing_of_writes hmem h i (bytes := bytes)
  obtain ⟨g1, g2⟩ := h2 (E !i) (mem !i) xs _ hserver (hmem !i) x1 (by rw [x2]; exact r1.trans (o1 ha))
  exact ⟨g1, fun hall hf hinc hw hcl => g2 (by rw [x2, r2 hcl hf hinc, o2 hall]) hw⟩

/-- C66 with text, partial: besides what is missing from `binary_messages_arrive_partial`, the text must be well-formed and no piece that the receiving socket hands to its stream may end
within a character (see `WsRoundTrip.segmentation_matters`). -/
theorem text_messages_arrive_partial (o : Endian.Order) (fromServer : Bool) (rng : Random.Rng) (cs : List Out1) (hok : ∀ c ∈ cs, c.Ok fromServer)
    (hs : Sequence none (cs.map Out1.frame)) :
    ∃ bytes, wire o fromServer rng cs = some bytes ∧
      ∀ (quiet : Bool) (E : Bool → Env) (c : Bool → Bool) (mem : Bool → List UInt8) (n : Net) (i : Bool), (∀ i, 125 ≤ (mem i).length) → Reach quiet E c mem n →
        (E !i).server = !fromServer → AllWritten (n.sys i) bytes → n.flying i = [] → (n.sys !i).sock.incoming = [] → (n.sys !i).br.waiting = true → (n.sys !i).br.closed = false →
        TextFine (!fromServer) (onClose (E !i).o (E !i).selfClose) (delivered none (cs.map Out1.frame)) (pieces0 (pieces (n.sys !i).sock.log)) →
        seen (shown (E !i) (n.sys !i).br) = delivered none (cs.map Out1.frame) := by
  obtain ⟨bytes, h1, h2⟩ := WsStream.sent_is_seen_partial o fromServer rng cs hok hs
  refine ⟨bytes, h1, fun quiet E c mem n i hmem h hserver hall hf hinc hw hcl ht => ?_⟩
  obtain ⟨xs, x1, x2, x3⟩ := shown_of_received hmem h (!i)
  obtain ⟨-, r2⟩ := received_is_sent hmem h i
  obtain ⟨-, o2⟩ := outgoing_of_writes hmem h i (bytes := bytes)
  exact h2 (E !i) (mem !i) xs _ hserver (hmem !i) x1 (by rw [x3, r2 hcl hf hinc, o2 hall]) hw (by rw [x2]; exact ht)

/-- C66, from application to application, partial: messages and pings queued at one WebSocket (`Cio.WsQueue`), whole frames, no text; each of its frames written to its stream. -/
theorem queued_messages_arrive_partial {s : WsQueue.State} (hq : WsQueue.Reach s) (hc : WsQueue.Clean s)
    (hw : ∀ f ∈ WsQueue.framesBC s.w.log, f.cont = false ∧ f.announced = f.size) (o : Endian.Order) (fromServer : Bool) (rng : Random.Rng) (cs : List Out1)
    (hr : List.Forall₂ WsRoundTrip.Realises cs (WsQueue.framesBC s.w.log)) (hok : ∀ c ∈ cs, c.Ok fromServer) (hb : NoTextSent none (cs.map Out1.frame)) :
    ∃ bytes, wire o fromServer rng cs = some bytes ∧
      ∀ (quiet : Bool) (E : Bool → Env) (c : Bool → Bool) (mem : Bool → List UInt8) (n : Net) (i : Bool), (∀ i, 125 ≤ (mem i).length) → Reach quiet E c mem n →
        (E !i).server = !fromServer → Asked (n.sys i) bytes →
        (∃ part, part <+: delivered none (cs.map Out1.frame) ∧
          (seen (shown (E !i) (n.sys !i).br) = part ∨ ∃ err ∈ (n.sys !i).br.transportErrs, seen (shown (E !i) (n.sys !i).br) = part ++ [.other (.fail (codeOf err))])) ∧
        (AllWritten (n.sys i) bytes → n.flying i = [] → (n.sys !i).sock.incoming = [] → (n.sys !i).br.waiting = true → (n.sys !i).br.closed = false →
          seen (shown (E !i) (n.sys !i).br) = delivered none (cs.map Out1.frame)) :=
  binary_messages_arrive_partial o fromServer rng cs hok
    (WsRoundTrip.sequence_of_legal cs _ hr (fun f hf => (hw f hf).1) none true (.inl rfl) (by simp) (WsQueue.frames_legal_partial hq hc)) hb

/-! ### The end of the connection -/

/-- C66: a side that is told of the end of the stream has got every byte the other side's operating system accepted, and the other side has closed its stream. -/
theorem end_is_true (hmem : ∀ i, 125 ≤ (mem i).length) (h : Reach quiet E c mem n) (i : Bool) (he : EOF ∈ (n.sys !i).br.transportErrs) :
    (n.sys i).br.closed = true ∧ (n.sys !i).br.received = (n.sys i).sock.outgoing := by
  have hn := reach_net hmem h
  have hr := (end_reach (hmem !i) (hn.ends !i)).1
  have hi := StreamSocket.reach_inv (mem_nonempty hmem) hr
  obtain ⟨t, ht⟩ := hi.errs _ he
  obtain ⟨-, -, -, -, t5⟩ := Socket.reads_truthful_partial (StreamSocket.sockReach hi.sock)
  obtain ⟨p, q, hpq⟩ := List.append_of_mem ht
  have hpc : .peerClosed ∈ (n.sys !i).sock.log := by
    rcases t5 p q t EOF [] hpq with ⟨b1, -⟩ | ⟨-, -, b1, -⟩ | ⟨b1, -⟩
    · exact absurd b1 (by decide)
    · rw [hpq]; exact List.mem_append_left _ b1
    · exact absurd b1 (by decide)
  obtain ⟨f1, f2⟩ := hn.fin i hpc
  refine ⟨f1, ?_⟩
  obtain ⟨-, g⟩ := hi.eof he
  rw [g, hn.arrived i, f2, List.take_length]

/-- C66, partial (as `binary_messages_arrive_partial`): a connection that ends normally has lost nothing.  If a side writes its frames, then closes, and the application of the other side is told
that the connection has ended (status 1000), then the side has closed and the application has seen everything before that. -/
theorem nothing_lost_before_end_partial (o : Endian.Order) (fromServer : Bool) (rng : Random.Rng) (cs : List Out1) (hok : ∀ c ∈ cs, c.Ok fromServer)
    (hs : Sequence none (cs.map Out1.frame)) (hb : NoTextSent none (cs.map Out1.frame)) :
    ∃ bytes, wire o fromServer rng cs = some bytes ∧
      ∀ (quiet : Bool) (E : Bool → Env) (c : Bool → Bool) (mem : Bool → List UInt8) (n : Net) (i : Bool), (∀ i, 125 ≤ (mem i).length) → Reach quiet E c mem n →
        (E !i).server = !fromServer → AllWritten (n.sys i) bytes → .other (.fail 1000) ∈ seen (shown (E !i) (n.sys !i).br) →
        (n.sys i).br.closed = true ∧ seen (shown (E !i) (n.sys !i).br) = delivered none (cs.map Out1.frame) ++ [.other (.fail 1000)] := by
  obtain ⟨bytes, fs, h1, h2, h3, h4, h5⟩ := WsRoundTrip.wire_frames o fromServer rng cs hok none (.inl rfl) hs
  refine ⟨bytes, h1, fun quiet E c mem n i hmem h hserver hall hfail => ?_⟩
  obtain ⟨xs, x1, -, x2⟩ := shown_of_received hmem h (!i)
  obtain ⟨o1, o2⟩ := outgoing_of_writes hmem h i (bytes := bytes)
  obtain ⟨r1, -⟩ := received_is_sent hmem h i
  obtain ⟨ps, p1, p2, -⟩ := WsStream.stream_refines (E !i) (mem !i) (hmem !i) xs _ x1
  have hall' : ∀ ps, streamOf ps = bytes → seen (outsOf (E !i).o (E !i).server (E !i).selfClose (E !i).utf8 ps) = delivered none (cs.map Out1.frame) := by
    intro ps hps
    rw [← h4, hserver]
    exact WsRecv.binary_frames_delivered (E !i).o (!fromServer) (E !i).selfClose (E !i).utf8 fs h3 (h5 hb) ps (hps.trans h2)
  have hpre : seen (outsOf (E !i).o (E !i).server (E !i).selfClose (E !i).utf8 ps) <+: delivered none (cs.map Out1.frame) := by
    obtain ⟨rest, hrest⟩ := r1.trans (o1 hall.asked)
    have := WsStream.outsOf_prefix (E !i).o (E !i).server (E !i).selfClose (E !i).utf8 ps [(0, rest)]
    rwa [hall' (ps ++ [(0, rest)]) (by
      rw [← hrest, ← x2, ← WsStream.streamOf_of ps _ p1]; simp [streamOf])] at this
  have hnot : .other (.fail 1000) ∉ seen (outsOf (E !i).o (E !i).server (E !i).selfClose (E !i).utf8 ps) :=
    fun g => no_fail none (cs.map Out1.frame) (hpre.subset g)
  rcases p2 with ⟨t, p2⟩ | ⟨err, q1, q2⟩
  · refine absurd ?_ hnot
    rw [← p2, WsRecv.seen_append]; exact List.mem_append_left _ hfail
  · have herr : err = EOF := by
      rw [q2, WsRecv.seen_append] at hfail
      rcases List.mem_append.1 hfail with g | g
      · exact absurd g hnot
      · have g : Seen.other (.fail 1000) ∈ [Seen.other (.fail (codeOf err))] := g
        rw [List.mem_singleton] at g
        injection g with g
        injection g with g
        unfold codeOf at g
        by_cases hz : err = EOF
        · exact hz
        · rw [if_neg hz] at g; exact absurd g (by decide)
    rw [herr] at q1 q2
    obtain ⟨e1, e2⟩ := end_is_true hmem h i q1
    refine ⟨e1, ?_⟩
    rw [q2, WsRecv.seen_append, hall' ps (by rw [WsStream.streamOf_of ps _ p1, x2, e2, o2 hall])]
    rfl
where
  no_fail (op : Option WsSend.FrameType) (fs : List (WsSend.FrameType × Bool × List UInt8)) : .other (.fail 1000) ∉ delivered op fs := by
    induction fs generalizing op with
    | nil => intro g; cases g
    | cons f fs ih =>
      obtain ⟨t, fin, p⟩ := f
      have hds : ∀ b, .other (.fail 1000) ∉ WsRoundTrip.dataSeen b fin p := by
        intro b g
        unfold WsRoundTrip.dataSeen at g
        rcases List.mem_append.1 g with g | g
        · obtain ⟨_, -, g⟩ := List.mem_map.1 g; cases g
        · rw [List.mem_singleton] at g; cases g
      cases t <;> unfold delivered <;> intro g
      · rcases List.mem_append.1 g with g | g
        · exact hds _ g
        · exact ih _ g
      · rcases List.mem_append.1 g with g | g
        · exact hds _ g
        · exact ih _ g
      · rcases List.mem_append.1 g with g | g
        · exact hds _ g
        · exact ih _ g
      · cases g
      · rcases List.mem_cons.1 g with g | g
        · cases g
        · rcases List.mem_cons.1 g with g | g
          · cases g
          · exact ih _ g
      · rcases List.mem_cons.1 g with g | g
        · cases g
        · exact ih _ g

end Cio.WsTcp
