import Verif.WsTcp.Examples
import Verif.StreamSocket.Exact
/-
C127: two WebSockets over two connected Linux sockets, without the condition on what `sendmsg` accepts (`Asked.early`) of C66: exactly which messages the other application sees once, and which
ones twice.
-/
namespace Cio.WsTcp
open StreamSocket (Sys Write)
open BufferedWrite (FirstEndsEarly)
open WsStream (Env shown pieces0 codeOf exSent)
open WsRecv (Seen seen outsOf streamOf onClose Frame Legal NoTextFrames shownAll)
open WsSend (FrameType)
open WsRoundTrip (Out1 Sequence NoTextSent TextFine delivered wire dataSeen)

variable {quiet : Bool} {E : Bool → Env} {c : Bool → Bool} {mem : Bool → List UInt8} {n : Net}

/-- The frames of `cs`, the k-th one twice if the first `sendmsg` of the k-th write neither ended before the last element with bytes nor accepted everything. -/
noncomputable def copies (cs : List Out1) (ws : List Write) : List (FrameType × Bool × List UInt8) :=
  open Classical in (cs.zip ws).flatMap fun p => if FirstEndsEarly p.2.chain p.2.answers then [p.1.frame] else [p.1.frame, p.1.frame]

/-- The side has asked for a beginning of these pieces to be written, each of them in one write, and has not gone on after a write that failed. -/
structure AskedEach (s : Sys) (chunks : List (List UInt8)) : Prop where
  each : s.writes.map Write.asked <+: chunks
  ok : ∀ x ∈ s.writes.dropLast, Succeeded x

/-! ### What the operating system accepts -/

theorem wires_sends_prefix (l : List Write) (hp : ∀ x ∈ l, x.world.wire <+: x.sends) (he : ∀ x ∈ l, Succeeded x → x.world.wire = x.sends)
    (hs : ∀ x ∈ l.dropLast, Succeeded x) : l.flatMap (fun x => x.world.wire) <+: l.flatMap Write.sends := by
  induction l with
  | nil => exact List.prefix_rfl
  | cons x l ih =>
    cases l with
    | nil =>
      rw [List.flatMap_cons, List.flatMap_cons, List.flatMap_nil, List.flatMap_nil, List.append_nil, List.append_nil]
      exact hp x List.mem_cons_self
    | cons y l =>
      rw [List.flatMap_cons, List.flatMap_cons (f := Write.sends), he x List.mem_cons_self (hs x (by simp))]
      exact (List.prefix_append_right_inj _).2 (ih (fun z hz => hp z (List.mem_cons_of_mem _ hz)) (fun z hz => he z (List.mem_cons_of_mem _ hz))
        (fun z hz => hs z (by rw [List.dropLast_cons_cons]; exact List.mem_cons_of_mem _ hz)))

theorem wires_sends_all (l : List Write) (he : ∀ x ∈ l, Succeeded x → x.world.wire = x.sends) (hs : ∀ x ∈ l, Succeeded x) :
    l.flatMap (fun x => x.world.wire) = l.flatMap Write.sends := by
  induction l with
  | nil => rfl
  | cons x l ih =>
    rw [List.flatMap_cons, List.flatMap_cons (f := Write.sends), he x List.mem_cons_self (hs x List.mem_cons_self),
      ih (fun z hz => he z (List.mem_cons_of_mem _ hz)) (fun z hz => hs z (List.mem_cons_of_mem _ hz))]

theorem outgoing_of_sends (hmem : ∀ i, 125 ≤ (mem i).length) (h : Reach quiet E c mem n) (i : Bool) :
    ((∀ x ∈ (n.sys i).writes.dropLast, Succeeded x) → (n.sys i).sock.outgoing <+: (n.sys i).writes.flatMap Write.sends) ∧
    ((∀ x ∈ (n.sys i).writes, Succeeded x) → (n.sys i).sock.outgoing = (n.sys i).writes.flatMap Write.sends) := by
  have hr := (end_reach (hmem i) ((reach_net hmem h).ends i)).1
  obtain ⟨w1, w2, -, -⟩ := StreamSocket.writes_exact (mem_nonempty hmem) hr
  have hp : ∀ x ∈ (n.sys i).writes, x.world.wire <+: x.sends := by
    intro x hx
    obtain ⟨a, b, -⟩ := w2 x hx
    unfold Write.sends
    split
    · rename_i hf; exact b hf
    · exact a
  have he : ∀ x ∈ (n.sys i).writes, Succeeded x → x.world.wire = x.sends := by
    intro x hx ⟨ch, hch⟩
    obtain ⟨a, b⟩ := (w2 x hx).2.2 ch hch
    unfold Write.sends
    split
    · rename_i hf; exact a hf
    · rename_i hf; exact b hf
  rw [w1]
  exact ⟨wires_sends_prefix _ hp he, wires_sends_all _ he⟩

/-! ### Whole frames -/

/-- `f` is what the receiver takes for the frame `c`, in between messages. -/
structure Whole (server : Bool) (c : Out1) (f : Frame) : Prop where
  enc : f.Encoded server
  allowed : f.Allowed 0
  after : f.after 0 = 0
  shown : ∀ l, delivered none (c.frame :: l) = f.shown 0 ++ delivered none l
  noText : NoTextSent none [c.frame] → f.opcode ≥ 8 ∨ f.kind 0 = 2

theorem one_frame (o : Endian.Order) (fromServer : Bool) (rng : Random.Rng) (c : Out1) (hok : c.Ok fromServer) (hfin : c.fin = true) (hs : Sequence none [c.frame]) :
    ∃ f rng', Whole (!fromServer) c f ∧ ∀ cs, wire o fromServer rng (c :: cs) = (wire o fromServer rng' cs).map (f.wire ++ ·) := by
  obtain ⟨r, more, e, em, f, hw, he, hf, hop, hpay⟩ := WsRoundTrip.sendFrame_frame o fromServer rng c hok
  refine ⟨f, r.rng, ?_, fun cs => ?_⟩
  · rw [hfin] at hf
    obtain ⟨t, fin, hdr, me, saved, chain, mo⟩ := c
    dsimp only at hfin
    subst hfin
    have hfl : f.payload.length = (Out1.payload ⟨t, true, hdr, me, saved, chain, mo⟩).length := by rw [hpay]
    cases t with
    | ping =>
      simp only [Out1.frame, Sequence] at hs
      have ho : f.opcode = 9 := hop
      exact ⟨he, .inl ⟨.inl ho, hf, by rw [hfl]; exact hs.2.1⟩, by simp [Frame.after, ho], fun l => by simp [Frame.shown, ho, delivered, Out1.frame, hpay], fun _ => .inl (by omega)⟩
    | pong =>
      simp only [Out1.frame, Sequence] at hs
      have ho : f.opcode = 10 := hop
      exact ⟨he, .inl ⟨.inr ho, hf, by rw [hfl]; exact hs.2.1⟩, by simp [Frame.after, ho], fun l => by simp [Frame.shown, ho, delivered, Out1.frame, hpay], fun _ => .inl (by omega)⟩
    | close => exact absurd hs (by simp [Out1.frame, Sequence])
    | continuation => exact absurd hs (by simp [Out1.frame, Sequence])
    | text =>
      have ho : f.opcode = 1 := hop
      exact ⟨he, .inr (.inl ⟨.inl ho, rfl⟩), by simp [Frame.after, ho, hf],
        fun l => by simp [Frame.shown, ho, delivered, Out1.frame, hpay, hf, dataSeen, Frame.kind], fun g => absurd g (by simp [NoTextSent, Out1.frame])⟩
    | binary =>
      have ho : f.opcode = 2 := hop
      exact ⟨he, .inr (.inl ⟨.inr ho, rfl⟩), by simp [Frame.after, ho, hf],
        fun l => by simp [Frame.shown, ho, delivered, Out1.frame, hpay, hf, dataSeen, Frame.kind], fun _ => .inr (by simp [Frame.kind, ho])⟩
  · rw [hw]
    simp only [wire, e, em, Option.bind_eq_bind, Option.bind_some, pure]
    cases wire o fromServer r.rng cs <;> rfl

/-- In a sequence of whole frames each one is allowed by itself. -/
theorem sequence_each (fs : List (FrameType × Bool × List UInt8)) (hfin : ∀ f ∈ fs, f.2.1 = true) (hs : Sequence none fs) :
    ∀ f ∈ fs, Sequence none [f] := by
  induction fs with
  | nil => intro f hf; cases hf
  | cons f fs ih =>
    obtain ⟨t, fin, p⟩ := f
    have h0 : fin = true := hfin _ List.mem_cons_self
    subst h0
    have key : Sequence none [(t, true, p)] ∧ Sequence none fs := by
      cases t <;> simp_all [Sequence]
    intro g hg
    rcases List.mem_cons.1 hg with rfl | hg
    · exact key.1
    · exact ih (fun f hf => hfin f (List.mem_cons_of_mem _ hf)) key.2 g hg

theorem noText_each (fs : List (FrameType × Bool × List UInt8)) (hfin : ∀ f ∈ fs, f.2.1 = true) (hs : Sequence none fs) (hb : NoTextSent none fs) :
    ∀ f ∈ fs, NoTextSent none [f] := by
  induction fs with
  | nil => intro f hf; cases hf
  | cons f fs ih =>
    obtain ⟨t, fin, p⟩ := f
    have h0 : fin = true := hfin _ List.mem_cons_self
    subst h0
    have key : (NoTextSent none [(t, true, p)] ∧ NoTextSent none fs) ∧ Sequence none fs := by
      cases t <;> simp_all [Sequence, NoTextSent]
    intro g hg
    rcases List.mem_cons.1 hg with rfl | hg
    · exact key.1.1
    · exact ih (fun f hf => hfin f (List.mem_cons_of_mem _ hf)) key.2 key.1.2 g hg

theorem whole_frames (o : Endian.Order) (fromServer : Bool) (rng : Random.Rng) (cs : List Out1) (hok : ∀ c ∈ cs, c.Ok fromServer) (hfin : ∀ c ∈ cs, c.fin = true)
    (hs : ∀ c ∈ cs, Sequence none [c.frame]) :
    ∃ fs, List.Forall₂ (Whole (!fromServer)) cs fs ∧ ∀ k, wire o fromServer rng (cs.take k) = some ((fs.take k).map Frame.wire).flatten := by
  induction cs generalizing rng with
  | nil => exact ⟨[], .nil, fun k => by simp [wire]⟩
  | cons c cs ih =>
    obtain ⟨f, rng', w, hw⟩ := one_frame o fromServer rng c (hok c List.mem_cons_self) (hfin c List.mem_cons_self) (hs c List.mem_cons_self)
    obtain ⟨fs, w1, w2⟩ := ih rng' (fun c hc => hok c (List.mem_cons_of_mem _ hc)) (fun c hc => hfin c (List.mem_cons_of_mem _ hc)) (fun c hc => hs c (List.mem_cons_of_mem _ hc))
    refine ⟨f :: fs, .cons w w1, fun k => ?_⟩
    cases k with
    | zero => simp [wire]
    | succ k => rw [List.take_succ_cons, hw, w2 k]; simp

/-- As `copies`, of the frames on the wire. -/
noncomputable def wireCopies (fs : List Frame) (ws : List Write) : List Frame :=
  open Classical in (fs.zip ws).flatMap fun p => if FirstEndsEarly p.2.chain p.2.answers then [p.1] else [p.1, p.1]

theorem copies_good (server : Bool) (cs : List Out1) (fs : List Frame) (hw : List.Forall₂ (Whole server) cs fs) (ws : List Write) (ha : ws.map Write.asked <+: fs.map Frame.wire) :
    ws.flatMap Write.sends = (wireCopies fs ws).flatMap Frame.wire ∧ Legal server 0 (wireCopies fs ws) ∧ shownAll 0 (wireCopies fs ws) = delivered none (copies cs ws) ∧
      ((∀ c ∈ cs, NoTextSent none [c.frame]) → NoTextFrames 0 (wireCopies fs ws)) := by
  induction hw generalizing ws with
  | nil =>
    cases ws with
    | nil => exact ⟨rfl, trivial, rfl, fun _ => trivial⟩
    | cons x ws => exact absurd (List.prefix_nil.1 ha) (by simp)
  | @cons c f cs fs h hw ih =>
    cases ws with
    | nil => exact ⟨rfl, trivial, rfl, fun _ => trivial⟩
    | cons x ws =>
      rw [List.map_cons, List.map_cons, List.cons_prefix_cons] at ha
      obtain ⟨ha, hrest⟩ := ha
      obtain ⟨i1, i2, i3, i4⟩ := ih ws hrest
      by_cases hf : FirstEndsEarly x.chain x.answers
      · have e1 : wireCopies (f :: fs) (x :: ws) = f :: wireCopies fs ws := by simp [wireCopies, hf]
        have e2 : copies (c :: cs) (x :: ws) = c.frame :: copies cs ws := by simp [copies, hf]
        rw [e1, e2]
        refine ⟨?_, ⟨h.enc, h.allowed, by rw [h.after]; exact i2⟩, ?_, fun g => ⟨h.noText (g _ List.mem_cons_self), by rw [h.after]; exact i4 fun c hc => g c (List.mem_cons_of_mem _ hc)⟩⟩
        · rw [List.flatMap_cons, List.flatMap_cons, i1]
          simp [Write.sends, hf, ha]
        · rw [shownAll, h.after, i3, h.shown]
      · have e1 : wireCopies (f :: fs) (x :: ws) = f :: f :: wireCopies fs ws := by simp [wireCopies, hf]
        have e2 : copies (c :: cs) (x :: ws) = c.frame :: c.frame :: copies cs ws := by simp [copies, hf]
        rw [e1, e2]
        refine ⟨?_, ⟨h.enc, h.allowed, by rw [h.after]; exact ⟨h.enc, h.allowed, by rw [h.after]; exact i2⟩⟩, ?_, fun g => ?_⟩
        · rw [List.flatMap_cons, List.flatMap_cons, List.flatMap_cons, i1]
          simp [Write.sends, hf, ha]
        · rw [shownAll, h.after, shownAll, h.after, i3, h.shown, h.shown]
        · have g0 := h.noText (g _ List.mem_cons_self)
          exact ⟨g0, by rw [h.after]; exact ⟨g0, by rw [h.after]; exact i4 fun c hc => g c (List.mem_cons_of_mem _ hc)⟩⟩

/-- What is seen of frames that belong to no text message, on their way. -/
theorem frames_seen (e : Env) (mem : List UInt8) (hmem : 125 ≤ mem.length) (xs : List WsStream.Ev) (w : BufferedRead.World) (hr : WsStream.Reach e mem xs w) (fs : List Frame)
    (hl : Legal e.server 0 fs) (hb : NoTextFrames 0 fs) (hp : (WsStream.deliveries xs).flatten <+: fs.flatMap Frame.wire) :
    (∃ part, part <+: shownAll 0 fs ∧ (seen (shown e w) = part ∨ ∃ err ∈ w.transportErrs, seen (shown e w) = part ++ [.other (.fail (codeOf err))])) ∧
    ((WsStream.deliveries xs).flatten = fs.flatMap Frame.wire → w.waiting = true → seen (shown e w) = shownAll 0 fs) := by
  have key : ∀ ps, streamOf ps = fs.flatMap Frame.wire → seen (outsOf e.o e.server e.selfClose e.utf8 ps) = shownAll 0 fs :=
    fun ps hps => WsRecv.binary_frames_delivered e.o e.server e.selfClose e.utf8 fs hl hb ps hps
  obtain ⟨ps, p1, p2, p3⟩ := WsStream.stream_refines e mem hmem xs w hr
  obtain ⟨rest, hrest⟩ := hp
  have hall : seen (outsOf e.o e.server e.selfClose e.utf8 ps) <+: shownAll 0 fs := by
    have := WsStream.outsOf_prefix e.o e.server e.selfClose e.utf8 ps [(0, rest)]
    rwa [key (ps ++ [(0, rest)]) (by
      rw [← hrest, ← WsStream.streamOf_of ps _ p1]; simp [streamOf])] at this
  constructor
  · rcases p2 with ⟨t, p2⟩ | ⟨err, q1, q2⟩
    · refine ⟨seen (shown e w), List.IsPrefix.trans ⟨seen t, ?_⟩ hall, .inl rfl⟩
      rw [← WsRecv.seen_append, p2]
    · refine ⟨_, hall, .inr ⟨err, q1, ?_⟩⟩
      rw [q2, WsRecv.seen_append]; rfl
  · intro hd hw
    rw [p3 (.inl hw)]
    exact key ps (by rw [WsStream.streamOf_of ps _ p1]; exact hd)

/-- C127: whole frames that belong to no text message, each of them written with one write.  At any moment the application of the other side has seen a beginning of what was sent, where a frame comes
twice exactly if its write is one of those that buffered_stream.c does not get right (then, if its transport failed, that); once all that was written so far has arrived and has been read, all
of it. -/
theorem binary_frames_exact (o : Endian.Order) (fromServer : Bool) (rng : Random.Rng) (cs : List Out1) (hok : ∀ c ∈ cs, c.Ok fromServer)
    (hs : Sequence none (cs.map Out1.frame)) (hb : NoTextSent none (cs.map Out1.frame)) (hfin : ∀ c ∈ cs, c.fin = true) :
    ∃ chunks : List (List UInt8), chunks.length = cs.length ∧ (∀ k, wire o fromServer rng (cs.take k) = some (chunks.take k).flatten) ∧
      ∀ (quiet : Bool) (E : Bool → Env) (c : Bool → Bool) (mem : Bool → List UInt8) (n : Net) (i : Bool), (∀ i, 125 ≤ (mem i).length) → Reach quiet E c mem n →
        (E !i).server = !fromServer → AskedEach (n.sys i) chunks →
        (∃ part, part <+: delivered none (copies cs (n.sys i).writes) ∧
          (seen (shown (E !i) (n.sys !i).br) = part ∨ ∃ err ∈ (n.sys !i).br.transportErrs, seen (shown (E !i) (n.sys !i).br) = part ++ [.other (.fail (codeOf err))])) ∧
        ((∀ x ∈ (n.sys i).writes, Succeeded x) → n.flying i = [] → (n.sys !i).sock.incoming = [] → (n.sys !i).br.waiting = true → (n.sys !i).br.closed = false →
          seen (shown (E !i) (n.sys !i).br) = delivered none (copies cs (n.sys i).writes)) := by
  have hfin' : ∀ f ∈ cs.map Out1.frame, f.2.1 = true := by
    intro f hf
    obtain ⟨c, hc, rfl⟩ := List.mem_map.1 hf
    exact hfin c hc
  obtain ⟨fs, f1, f2⟩ := whole_frames o fromServer rng cs hok hfin (fun c hc => sequence_each _ hfin' hs _ (List.mem_map.2 ⟨c, hc, rfl⟩))
  refine ⟨fs.map Frame.wire, by rw [List.length_map]; exact f1.length_eq.symm, fun k => by rw [f2, List.map_take], fun quiet E c mem n i hmem h hserver ha => ?_⟩
  obtain ⟨g1, g2, g3, g4⟩ := copies_good (!fromServer) cs fs f1 (n.sys i).writes ha.each
  obtain ⟨xs, x1, -, x2⟩ := shown_of_received hmem h (!i)
  obtain ⟨r1, r2⟩ := received_is_sent hmem h i
  obtain ⟨o1, o2⟩ := outgoing_of_sends hmem h i
  rw [g1] at o1 o2
  obtain ⟨s1, s2⟩ := frames_seen (E !i) (mem !i) (hmem !i) xs _ x1 (wireCopies fs (n.sys i).writes) (hserver ▸ g2)
    (g4 fun c hc => noText_each _ hfin' hs hb _ (List.mem_map.2 ⟨c, hc, rfl⟩)) (by rw [x2]; exact r1.trans (o1 ha.ok))
  rw [g3] at s1 s2
  exact ⟨s1, fun hall hf hinc hw hcl => s2 (by rw [x2, r2 hcl hf hinc, o2 hall]) hw⟩

/-- C127 with text: as above, but that all of it has arrived, the text messages are well-formed, and no piece that the receiving socket hands to its stream ends within a character. -/
theorem text_frames_exact_partial (o : Endian.Order) (fromServer : Bool) (rng : Random.Rng) (cs : List Out1) (hok : ∀ c ∈ cs, c.Ok fromServer)
    (hs : Sequence none (cs.map Out1.frame)) (hfin : ∀ c ∈ cs, c.fin = true) :
    ∃ chunks : List (List UInt8), chunks.length = cs.length ∧ (∀ k, wire o fromServer rng (cs.take k) = some (chunks.take k).flatten) ∧
      ∀ (quiet : Bool) (E : Bool → Env) (c : Bool → Bool) (mem : Bool → List UInt8) (n : Net) (i : Bool), (∀ i, 125 ≤ (mem i).length) → Reach quiet E c mem n →
        (E !i).server = !fromServer → (n.sys i).writes.map Write.asked <+: chunks → (∀ x ∈ (n.sys i).writes, Succeeded x) → n.flying i = [] → (n.sys !i).sock.incoming = [] →
        (n.sys !i).br.waiting = true → (n.sys !i).br.closed = false →
        TextFine (!fromServer) (onClose (E !i).o (E !i).selfClose) (delivered none (copies cs (n.sys i).writes)) (pieces0 (pieces (n.sys !i).sock.log)) →
        seen (shown (E !i) (n.sys !i).br) = delivered none (copies cs (n.sys i).writes) := by
  have hfin' : ∀ f ∈ cs.map Out1.frame, f.2.1 = true := by
    intro f hf
    obtain ⟨c, hc, rfl⟩ := List.mem_map.1 hf
    exact hfin c hc
  obtain ⟨fs, f1, f2⟩ := whole_frames o fromServer rng cs hok hfin (fun c hc => sequence_each _ hfin' hs _ (List.mem_map.2 ⟨c, hc, rfl⟩))
  refine ⟨fs.map Frame.wire, by rw [List.length_map]; exact f1.length_eq.symm, fun k => by rw [f2, List.map_take], fun quiet E c mem n i hmem h hserver ha hall hf hinc hw hcl ht => ?_⟩
  obtain ⟨g1, g2, g3, -⟩ := copies_good (!fromServer) cs fs f1 (n.sys i).writes ha
  obtain ⟨xs, x1, x2, x3⟩ := shown_of_received hmem h (!i)
  obtain ⟨-, r2⟩ := received_is_sent hmem h i
  obtain ⟨-, o2⟩ := outgoing_of_sends hmem h i
  have hd : (WsStream.deliveries xs).flatten = (wireCopies fs (n.sys i).writes).flatMap Frame.wire := by rw [x3, r2 hcl hf hinc, o2 hall, g1]
  rw [← g3]
  refine WsStream.stream_frames_delivered (E !i) (mem !i) (hmem !i) xs _ x1 _ (hserver ▸ g2) hd hw (.inr ?_)
  have e0 := WsRecv.receive_frames (onClose (E !i).o (E !i).selfClose) (!fromServer) 0 (wireCopies fs (n.sys i).writes) [] g2
  rw [WsRecv.receive_nil, List.append_nil, List.append_nil] at e0
  have e1 : streamOf (pieces0 (WsStream.deliveries xs)) = (wireCopies fs (n.sys i).writes).flatMap Frame.wire := by
    rw [WsStream.streamOf_of _ (WsStream.deliveries xs) (by simp [pieces0]), hd]
  have e2 : WsRecv.receive (E !i).server (onClose (E !i).o (E !i).selfClose) 0 (streamOf (pieces0 (WsStream.deliveries xs))) = delivered none (copies cs (n.sys i).writes) := by
    rw [e1, hserver, e0, ← g3]
  rw [← x2] at ht
  exact ⟨by rw [e2]; exact ht.complete, by rw [e2]; exact ht.pending, hserver ▸ ht.uncut⟩

/-! ### Nothing gets stuck, nothing is lost -/

/-- All that the operating system of one side has accepted can get into the hands of the other side's application, if it is not such that the application stops. -/
theorem can_arrive (hmem : ∀ i, 125 ≤ (mem i).length) (h : Reach true E c mem n) (i : Bool) (hh : Harmless (E !i) (mem !i) (n.sys i).sock.outgoing)
    (hcl : (n.sys !i).br.closed = false) (hte : (n.sys !i).br.transportErrs = []) (hbusy : (n.sys !i).busy = false) :
    ∃ n', Leads true E c i n n' ∧ (n'.sys !i).br.closed = false ∧ (n'.sys !i).br.transportErrs = [] ∧ (n'.sys !i).br.waiting = true ∧
      n'.sys i = n.sys i ∧ n'.flying i = [] ∧ (n'.sys !i).sock.incoming = [] := by
  generalize hout : (n.sys i).sock.outgoing = bytes at hh
  obtain ⟨n1, l1, f1, b1, b2, b3, b4⟩ := all_carried hmem h i
  have r1 := l1.reach h
  have hn1 := reach_net hmem r1
  have hout : (n1.sys i).sock.outgoing = bytes := by rw [l1.other]; exact hout
  have rd1 : Reading true (E !i) (c !i) (mem !i) bytes (n1.sys !i) := by
    refine ⟨hn1.ends _, ?_, by rw [b1]; exact hcl, by rw [b1]; exact hte, ?_⟩
    · unfold Sys.busy at hbusy ⊢; rw [b2, b3]; exact hbusy
    · rw [← hout]; exact (received_is_sent hmem r1 i).1
  have hsent : Socket.sent (n1.sys !i).sock.log = bytes := by
    rw [hn1.arrived i, ← hout, List.take_of_length_le]
    have h0 := congrArg List.length f1
    unfold Net.flying at h0
    rw [List.length_drop, List.length_nil] at h0
    omega
  obtain ⟨s2, g2, rd2, u2⟩ : ∃ s2, Goes true (E !i) (c !i) (n1.sys !i) s2 ∧ Reading true (E !i) (c !i) (mem !i) bytes s2 ∧ s2.inUser = true := by
    cases hst : (n1.sys !i).sock.stack with
    | cons a st =>
      refine ⟨_, .refl _, rd1, ?_⟩
      have : a = .user := end_stack (hmem !i) (hn1.ends _) a (by rw [hst]; exact List.mem_cons_self)
      subst this
      unfold Sys.inUser; rw [hst]
    | nil =>
      have hub : (n1.sys !i).sock.ub = false := (both_sides_safe hmem r1 (!i)).2.2.2.2.1
      have hstep : StreamSocket.step (WsStream.handler (E !i)) (n1.sys !i) .enter = some { n1.sys !i with sock := { (n1.sys !i).sock with stack := [.user] } } := by
        unfold StreamSocket.step
        dsimp only
        unfold Socket.step
        rw [if_neg (by rw [hub]; simp), hst]
        rfl
      have hgo : Goes true (E !i) (c !i) (n1.sys !i) { n1.sys !i with sock := { (n1.sys !i).sock with stack := [.user] } } :=
        .step (.refl _) (x := .enter) trivial trivial rfl hstep (fun g1 g2 => by
          have g1 : (n1.sys !i).br.closed = true := g1
          rw [g2] at g1; cases g1)
      exact ⟨_, hgo, ⟨hgo.end_ (hn1.ends _), rd1.busy, rd1.opened, rd1.fine, rd1.pre⟩, rfl⟩
  obtain ⟨s3, g3, -, rd3, st3, w3⟩ := comes_to_wait (hmem !i) hh rd2 u2
  have hsent3 : Socket.sent s3.sock.log = bytes := by rw [g3.sent (hmem !i) rd2.end_, g2.sent (hmem !i) (hn1.ends _), hsent]
  obtain ⟨s4, g4, rd4, st4, w4, in4, -, -⟩ := end_drains (hmem !i) hh _ (Nat.lt_succ_self _) rd3 st3 w3 (by rw [hsent3])
  have hgo : Goes true (E !i) (c !i) (n1.sys !i) s4 := (g2.trans g3).trans g4
  have l4 := leads_goes (n := n1) hgo rfl
  refine ⟨_, l1.trans l4, ?_⟩
  have hne : i ≠ !i := by cases i <;> decide
  have e4 : (({ n1 with sys := set n1.sys (!i) s4 } : Net).sys !i) = s4 := set_same _ _ _
  have ei : (({ n1 with sys := set n1.sys (!i) s4 } : Net).sys i) = n1.sys i := set_other _ hne _
  rw [e4]
  refine ⟨rd4.opened, rd4.fine, w4, by rw [ei, l1.other], ?_, in4⟩
  unfold Net.flying
  rw [ei]
  exact f1

/-- C127, nothing gets stuck: at any moment at which the writes of one side were successful, and the other one has neither closed its stream nor had an error of the transport and is not just about to
send something, the network and the other side can go on by themselves, until the application of the other side has seen everything.  It takes an operating system that does not report sockets as
readable that are not (`quiet`), and no failing system calls. -/
theorem everything_can_arrive_exact (o : Endian.Order) (fromServer : Bool) (rng : Random.Rng) (cs : List Out1) (hok : ∀ c ∈ cs, c.Ok fromServer)
    (hs : Sequence none (cs.map Out1.frame)) (hb : NoTextSent none (cs.map Out1.frame)) (hfin : ∀ c ∈ cs, c.fin = true) :
    ∃ chunks : List (List UInt8), chunks.length = cs.length ∧ (∀ k, wire o fromServer rng (cs.take k) = some (chunks.take k).flatten) ∧
      ∀ (E : Bool → Env) (c : Bool → Bool) (mem : Bool → List UInt8) (n : Net) (i : Bool), (∀ i, 125 ≤ (mem i).length) → Reach true E c mem n →
        (E !i).server = !fromServer → (n.sys i).writes.map Write.asked <+: chunks → (∀ x ∈ (n.sys i).writes, Succeeded x) → (n.sys !i).br.closed = false →
        (n.sys !i).br.transportErrs = [] → (n.sys !i).busy = false →
        ∃ n', Leads true E c i n n' ∧ (n'.sys !i).br.closed = false ∧ (n'.sys !i).br.transportErrs = [] ∧ (n'.sys !i).br.waiting = true ∧
          seen (shown (E !i) (n'.sys !i).br) = delivered none (copies cs (n.sys i).writes) := by
  have hfin' : ∀ f ∈ cs.map Out1.frame, f.2.1 = true := by
    intro f hf
    obtain ⟨c, hc, rfl⟩ := List.mem_map.1 hf
    exact hfin c hc
  obtain ⟨fs, f1, f2⟩ := whole_frames o fromServer rng cs hok hfin (fun c hc => sequence_each _ hfin' hs _ (List.mem_map.2 ⟨c, hc, rfl⟩))
  refine ⟨fs.map Frame.wire, by rw [List.length_map]; exact f1.length_eq.symm, fun k => by rw [f2, List.map_take], fun E c mem n i hmem h hserver ha hall hcl hte hbusy => ?_⟩
  obtain ⟨g1, g2, g3, g4⟩ := copies_good (!fromServer) cs fs f1 (n.sys i).writes ha
  have g4 := g4 fun c hc => noText_each _ hfin' hs hb _ (List.mem_map.2 ⟨c, hc, rfl⟩)
  have hout : (n.sys i).sock.outgoing = (wireCopies fs (n.sys i).writes).flatMap Frame.wire := by rw [(outgoing_of_sends hmem h i).2 hall, g1]
  have hh : Harmless (E !i) (mem !i) (n.sys i).sock.outgoing := by
    intro xs w hx hp ht hst
    rw [hout] at hp
    obtain ⟨⟨part, p1, p2⟩, -⟩ := frames_seen (E !i) (mem !i) (hmem !i) xs w hx _ (hserver ▸ g2) g4 (by rw [(WsStream.reach_inv (E !i) (hmem !i) hx).good.got]; exact hp)
    rw [g3] at p1
    obtain ⟨x, x1, x2⟩ := stopped_shown (E !i) w hst
    have hx' := final_seen x1 x2
    rcases p2 with g | ⟨err, g, -⟩
    · rw [g] at hx'
      rw [delivered_not_final none _ x (p1.subset hx')] at x2
      cases x2
    · rw [ht] at g; cases g
  obtain ⟨n', l, c1, c2, c3, c4, c5, c6⟩ := can_arrive hmem h i hh hcl hte hbusy
  refine ⟨n', l, c1, c2, c3, ?_⟩
  have r' := l.reach h
  obtain ⟨xs, x1, -, x2⟩ := shown_of_received hmem r' (!i)
  have hd : (WsStream.deliveries xs).flatten = (wireCopies fs (n.sys i).writes).flatMap Frame.wire := by rw [x2, (received_is_sent hmem r' i).2 c1 c5 c6, c4, hout]
  rw [← g3]
  exact (frames_seen (E !i) (mem !i) (hmem !i) xs _ x1 _ (hserver ▸ g2) g4 (by rw [hd])).2 hd c3

/-- C127: a connection that ends normally has lost nothing.  If the writes of a side were successful, and the application of the other side is told that the connection has ended (status 1000), then the
side has closed and the application has seen everything before that. -/
theorem nothing_lost_before_end_exact (o : Endian.Order) (fromServer : Bool) (rng : Random.Rng) (cs : List Out1) (hok : ∀ c ∈ cs, c.Ok fromServer)
    (hs : Sequence none (cs.map Out1.frame)) (hb : NoTextSent none (cs.map Out1.frame)) (hfin : ∀ c ∈ cs, c.fin = true) :
    ∃ chunks : List (List UInt8), chunks.length = cs.length ∧ (∀ k, wire o fromServer rng (cs.take k) = some (chunks.take k).flatten) ∧
      ∀ (quiet : Bool) (E : Bool → Env) (c : Bool → Bool) (mem : Bool → List UInt8) (n : Net) (i : Bool), (∀ i, 125 ≤ (mem i).length) → Reach quiet E c mem n →
        (E !i).server = !fromServer → (n.sys i).writes.map Write.asked <+: chunks → (∀ x ∈ (n.sys i).writes, Succeeded x) → .other (.fail 1000) ∈ seen (shown (E !i) (n.sys !i).br) →
        (n.sys i).br.closed = true ∧ seen (shown (E !i) (n.sys !i).br) = delivered none (copies cs (n.sys i).writes) ++ [.other (.fail 1000)] := by
  have hfin' : ∀ f ∈ cs.map Out1.frame, f.2.1 = true := by
    intro f hf
    obtain ⟨c, hc, rfl⟩ := List.mem_map.1 hf
    exact hfin c hc
  obtain ⟨fs, f1, f2⟩ := whole_frames o fromServer rng cs hok hfin (fun c hc => sequence_each _ hfin' hs _ (List.mem_map.2 ⟨c, hc, rfl⟩))
  refine ⟨fs.map Frame.wire, by rw [List.length_map]; exact f1.length_eq.symm, fun k => by rw [f2, List.map_take], fun quiet E c mem n i hmem h hserver ha hall hfail => ?_⟩
  obtain ⟨g1, g2, g3, g4⟩ := copies_good (!fromServer) cs fs f1 (n.sys i).writes ha
  have g4 := g4 fun c hc => noText_each _ hfin' hs hb _ (List.mem_map.2 ⟨c, hc, rfl⟩)
  have hout : (n.sys i).sock.outgoing = (wireCopies fs (n.sys i).writes).flatMap Frame.wire := by rw [(outgoing_of_sends hmem h i).2 hall, g1]
  obtain ⟨xs, x1, -, x2⟩ := shown_of_received hmem h (!i)
  obtain ⟨r1, -⟩ := received_is_sent hmem h i
  obtain ⟨ps, p1, p2, -⟩ := WsStream.stream_refines (E !i) (mem !i) (hmem !i) xs _ x1
  have hall' : ∀ ps, streamOf ps = (wireCopies fs (n.sys i).writes).flatMap Frame.wire →
      seen (outsOf (E !i).o (E !i).server (E !i).selfClose (E !i).utf8 ps) = delivered none (copies cs (n.sys i).writes) := by
    intro ps hps
    rw [← g3, hserver]
    exact WsRecv.binary_frames_delivered (E !i).o (!fromServer) (E !i).selfClose (E !i).utf8 _ g2 g4 ps hps
  have hpre : seen (outsOf (E !i).o (E !i).server (E !i).selfClose (E !i).utf8 ps) <+: delivered none (copies cs (n.sys i).writes) := by
    rw [hout] at r1
    obtain ⟨rest, hrest⟩ := r1
    have := WsStream.outsOf_prefix (E !i).o (E !i).server (E !i).selfClose (E !i).utf8 ps [(0, rest)]
    rwa [hall' (ps ++ [(0, rest)]) (by
      rw [← hrest, ← x2, ← WsStream.streamOf_of ps _ p1]; simp [streamOf])] at this
  have hnot : .other (.fail 1000) ∉ seen (outsOf (E !i).o (E !i).server (E !i).selfClose (E !i).utf8 ps) :=
    fun g => nothing_lost_before_end_partial.no_fail none _ (hpre.subset g)
  rcases p2 with ⟨t, p2⟩ | ⟨err, q1, q2⟩
  · refine absurd ?_ hnot
    rw [← p2, WsRecv.seen_append]; exact List.mem_append_left _ hfail
  · have herr : err = EOF := by
      rw [q2, WsRecv.seen_append] at hfail
      rcases List.mem_append.1 hfail with g | g
      · exact absurd g hnot
      · have g : Seen.other (.fail 1000) ∈ [Seen.other (.fail (codeOf err))] := g
        rw [List.mem_singleton] at g
        injection g with g
        injection g with g
        unfold codeOf at g
        by_cases hz : err = EOF
        · exact hz
        · rw [if_neg hz] at g; exact absurd g (by decide)
    rw [herr] at q1 q2
    obtain ⟨e1, e2⟩ := end_is_true hmem h i q1
    refine ⟨e1, ?_⟩
    rw [q2, WsRecv.seen_append, hall' ps (by rw [WsStream.streamOf_of ps _ p1, x2, e2, hout])]
    rfl

/-! ### A run -/

/-- As `exRead`, but the first `sendmsg` for the ping accepts its header only. -/
def exMixed : List Ev :=
  [.app true .enter, .app true (.user (.read (.atLeast 1)) fine), .app true (.loop fine), .app true .leave,
   .app false .enter, .app false (.write [⟨7, [0x82, 5]⟩, ⟨8, [10, 11, 12]⟩, ⟨9, [20, 21]⟩]), .app false (.send (.sent 4)), .carry false 3, .app false (.send .again),
   .app false .leave, .app false .leave,
   .app true (.readable (.bytes 2)), .app true (.loop fine), .app true (.loop fine), .app true (.loop fine), .app true .leave,
   .app false (.writable none), .app false (.send (.sent 100)), .app false (.write [⟨7, [0x89, 1]⟩, ⟨8, [7]⟩]), .app false (.send (.sent 2)), .app false (.send (.sent 100)), .app false .leave,
   .carry false 100, .app true (.readable (.bytes 100)), .app true (.loop fine), .app true (.loop fine), .app true (.user (.read (.atLeast 1)) fine),
   .app true (.loop fine), .app true (.loop fine), .app true (.loop fine), .app true (.loop fine), .app true (.user (.read (.atLeast 1)) fine), .app true (.loop fine),
   .app true (.loop fine), .app true (.loop fine), .app true (.loop fine), .app true (.user (.read (.atLeast 1)) fine), .app true (.loop fine), .app true .leave]

/-- What the hypotheses of `binary_frames_exact` ask about the state, whether each write is early, and what was seen. -/
structure EachView where
  asked : List (List UInt8)
  early : List Bool
  results : List (List Err)
  flying : List UInt8
  incoming : List UInt8
  waiting : Bool
  closed : Bool
  shown : List Seen
deriving DecidableEq

def eachView (n : Net) : EachView :=
  ⟨(n.sys false).writes.map Write.asked, (n.sys false).writes.map earlyB, (n.sys false).writes.map (fun x => x.world.calls.map (·.1)), n.flying false, (n.sys true).sock.incoming,
    (n.sys true).br.waiting, (n.sys true).br.closed, seen (shown (exE true) (n.sys true).br)⟩

set_option maxRecDepth 40000 in
theorem mixed_view : (runOk true exE exC (initial exC exMem) exMixed).map eachView =
    some ⟨[[0x82, 5, 10, 11, 12, 20, 21], [0x89, 1, 7]], [true, false], [[SUCCESS], [SUCCESS]], [], [], true, false,
      delivered none (exSent.map Out1.frame) ++ [.other (.control 9 [7]), .other (.pong [7])]⟩ := by decide +kernel

theorem not_early_of (x : Write) (h : earlyB x = false) : ¬ FirstEndsEarly x.chain x.answers := by
  intro g
  unfold earlyB at h
  split at h
  · rename_i n hn
    have := g n hn
    simp at h
    omega
  · cases h

/-- The hypotheses of `binary_frames_exact` are met, of both of its parts, where one frame comes once and the other one twice: the client is told of one ping twice and answers it twice. -/
theorem ping_seen_twice : ∃ n, Reach true exE exC exMem n ∧ (exE !false).server = !true ∧ AskedEach (n.sys false) [[0x82, 5, 10, 11, 12, 20, 21], [0x89, 1, 7]] ∧
    (∀ x ∈ (n.sys false).writes, Succeeded x) ∧ n.flying false = [] ∧ (n.sys !false).sock.incoming = [] ∧ (n.sys !false).br.waiting = true ∧ (n.sys !false).br.closed = false ∧
    copies exSent (n.sys false).writes = exSent.map Out1.frame ++ [(.ping, true, [7])] ∧
    seen (shown (exE !false) (n.sys !false).br) = delivered none (exSent.map Out1.frame) ++ [.other (.control 9 [7]), .other (.pong [7])] := by
  cases hr : runOk true exE exC (initial exC exMem) exMixed with
  | none => have := mixed_view; rw [hr] at this; cases this
  | some n =>
    have hv := mixed_view
    rw [hr, Option.map_some, Option.some.injEq] at hv
    unfold eachView at hv
    simp only [EachView.mk.injEq] at hv
    obtain ⟨v1, v2, v3, v4, v5, v6, v7, hs⟩ := hv
    have hall : ∀ x ∈ (n.sys false).writes, Succeeded x := by
      intro x hx
      have hm : x.world.calls.map (·.1) ∈ [[SUCCESS], [SUCCESS]] := by rw [← v3]; exact List.mem_map.2 ⟨x, hx, rfl⟩
      have hm : x.world.calls.map (·.1) = [SUCCESS] := by simpa using hm
      obtain ⟨⟨a, ch⟩, ha, hb⟩ := List.mem_map.1 (show SUCCESS ∈ x.world.calls.map (·.1) by rw [hm]; exact List.mem_singleton.2 rfl)
      dsimp only at hb
      subst hb
      exact ⟨ch, ha⟩
    refine ⟨n, runOk_reach _ .init hr, rfl, ⟨by rw [v1], fun x hx => hall x (List.dropLast_subset _ hx)⟩, hall, v4, v5, v6, v7, ?_, hs⟩
    match hw : (n.sys false).writes with
    | [] => rw [hw] at v2; cases v2
    | [_] => rw [hw] at v2; simp at v2
    | _ :: _ :: _ :: _ => rw [hw] at v2; simp at v2
    | [x, y] =>
      rw [hw] at v2
      simp only [List.map_cons, List.map_nil, List.cons.injEq] at v2
      have hx := early_of x v2.1
      have hy := not_early_of y v2.2.1
      simp [copies, exSent, hx, hy, Out1.frame, Out1.payload, Masking.chainBytes, Masking.bytesAt, WsRoundTrip.exMem]

/-- The same, and then the server closes: what the hypotheses of `nothing_lost_before_end_exact` ask is met, and the client has seen the ping twice. -/
def exMixedEnded : List Ev := exMixed ++ [.app false (.user .close fine), .fin false, .app true (.readable (.bytes 100)), .app true (.loop fine), .app true (.loop fine), .app true .leave]

set_option maxRecDepth 40000 in
example : (runOk true exE exC (initial exC exMem) exMixedEnded).map eachView =
    some ⟨[[0x82, 5, 10, 11, 12, 20, 21], [0x89, 1, 7]], [true, false], [[SUCCESS], [SUCCESS]], [], [], false, false,
      delivered none (exSent.map Out1.frame) ++ [.other (.control 9 [7]), .other (.pong [7])] ++ [.other (.fail 1000)]⟩ := by decide +kernel

/-- Before anything has arrived: what the hypotheses of `everything_can_arrive_exact` ask is met. -/
example : (runOk true exE exC (initial exC exMem) (exMixed.take 21)).map (fun n => ((eachView n).asked, (eachView n).results, (eachView n).closed)) =
    some ([[0x82, 5, 10, 11, 12, 20, 21], [0x89, 1, 7]], [[SUCCESS], [SUCCESS]], false) := by decide +kernel

example : (runOk true exE exC (initial exC exMem) (exMixed.take 21)).map (fun n => ((n.sys true).br.transportErrs, (n.sys true).busy, (eachView n).early, (eachView n).shown)) =
    some ([], false, [true, false], []) := by decide +kernel

end Cio.WsTcp
