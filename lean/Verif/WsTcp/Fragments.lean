import Verif.WsTcp.Exact
/-
C127 for messages in several frames: what happens if a frame that belongs to a fragmented message comes twice.
-/
namespace Cio.WsTcp
open StreamSocket (Sys Write)
open BufferedWrite (FirstEndsEarly)
open WsStream (Env shown codeOf)
open WsRecv (Seen seen outsOf streamOf onClose Frame Legal NoText)
open WsSend (FrameType rfcOpcode)
open WsRoundTrip (Out1 Sequence NoTextSent delivered wire dataSeen fragOf)

/-- What a receiver that keeps to RFC 6455 is to see of these frames: as `delivered`, but a frame that continues nothing, or that begins a message within another one, makes the connection fail
with status 1002 and nothing more is seen (sections 5.4 and 7.4.1). -/
def deliveredStrict : Option FrameType → List (FrameType × Bool × List UInt8) → List Seen
  | _, [] => []
  | open_, (.ping, _, p) :: fs => .other (.control 9 p) :: .other (.pong p) :: deliveredStrict open_ fs
  | open_, (.pong, _, p) :: fs => .other (.control 10 p) :: deliveredStrict open_ fs
  | open_, (.continuation, fin, p) :: fs =>
    if open_ = none then [.other (.fail 1002)] else dataSeen (open_ = some .binary) fin p ++ deliveredStrict (if fin then none else open_) fs
  | open_, (.text, fin, p) :: fs => if open_ = none then dataSeen false fin p ++ deliveredStrict (if fin then none else some .text) fs else [.other (.fail 1002)]
  | open_, (.binary, fin, p) :: fs => if open_ = none then dataSeen true fin p ++ deliveredStrict (if fin then none else some .binary) fs else [.other (.fail 1002)]
  | _, (.close, _, _) :: _ => []

/-- Of a legal sequence, it is what is delivered. -/
theorem strict_of_legal (op : Option FrameType) (fs : List (FrameType × Bool × List UInt8)) (h : Sequence op fs) : deliveredStrict op fs = delivered op fs := by
  induction fs generalizing op with
  | nil => rfl
  | cons f fs ih =>
    obtain ⟨t, fin, p⟩ := f
    cases t with
    | ping => rw [deliveredStrict, delivered, ih op h.2.2]
    | pong => rw [deliveredStrict, delivered, ih op h.2.2]
    | close => exact absurd h id
    | continuation => rw [deliveredStrict, delivered, if_neg h.1, ih _ h.2]
    | text => rw [deliveredStrict, delivered, if_pos h.1, ih _ h.2]
    | binary => rw [deliveredStrict, delivered, if_pos h.1, ih _ h.2]

/-- Once it has failed, nothing more is seen. -/
theorem strict_fail_last (op : Option FrameType) (fs : List (FrameType × Bool × List UInt8)) (part : List Seen) (h : part <+: deliveredStrict op fs)
    (hm : .other (.fail 1002) ∈ part) : part = deliveredStrict op fs := by
  have data : ∀ b fin p, Seen.other (.fail 1002) ∉ dataSeen b fin p := by
    intro b fin p g
    unfold dataSeen at g
    rcases List.mem_append.1 g with g | g
    · obtain ⟨_, -, g⟩ := List.mem_map.1 g; cases g
    · rw [List.mem_singleton] at g; cases g
  have step : ∀ (a : List Seen) (op' : Option FrameType) (fs' : List (FrameType × Bool × List UInt8)),
      (∀ part, part <+: deliveredStrict op' fs' → .other (.fail 1002) ∈ part → part = deliveredStrict op' fs') → .other (.fail 1002) ∉ a →
      ∀ part, part <+: a ++ deliveredStrict op' fs' → .other (.fail 1002) ∈ part → part = a ++ deliveredStrict op' fs' := by
    intro a op' fs' ih ha part h hm
    rcases List.prefix_or_prefix_of_prefix h (List.prefix_append a _) with g | ⟨l, rfl⟩
    · exact absurd (g.subset hm) ha
    · have hl := (List.prefix_append_right_inj a).1 h
      rcases List.mem_append.1 hm with g | g
      · exact absurd g ha
      · rw [ih l hl g]
  have one : ∀ part, part <+: [Seen.other (.fail 1002)] → .other (.fail 1002) ∈ part → part = [Seen.other (.fail 1002)] := by
    intro part h hm
    rcases part with _ | ⟨x, part⟩
    · cases hm
    · rw [List.cons_prefix_cons] at h
      rw [h.1, List.prefix_nil.1 h.2]
  induction fs generalizing op part with
  | nil => rw [List.prefix_nil.1 h] at hm; cases hm
  | cons f fs ih =>
    obtain ⟨t, fin, p⟩ := f
    cases t with
    | ping => exact step [.other (.control 9 p), .other (.pong p)] op fs (fun part => ih op part) (by simp) part h hm
    | pong => exact step [.other (.control 10 p)] op fs (fun part => ih op part) (by simp) part h hm
    | close => rw [List.prefix_nil.1 h] at hm; cases hm
    | continuation =>
      rw [deliveredStrict] at h ⊢
      split at h
      · next g => rw [if_pos g]; exact one part h hm
      · next g => rw [if_neg g]; exact step _ _ fs (fun part => ih _ part) (data _ _ _) part h hm
    | text =>
      rw [deliveredStrict] at h ⊢
      split at h
      · next g => rw [if_pos g]; exact step _ _ fs (fun part => ih _ part) (data _ _ _) part h hm
      · next g => rw [if_neg g]; exact one part h hm
    | binary =>
      rw [deliveredStrict] at h ⊢
      split at h
      · next g => rw [if_pos g]; exact step _ _ fs (fun part => ih _ part) (data _ _ _) part h hm
      · next g => rw [if_neg g]; exact one part h hm

theorem strict_not_ended (op : Option FrameType) (fs : List (FrameType × Bool × List UInt8)) : Seen.other (.fail 1000) ∉ deliveredStrict op fs := by
  have data : ∀ b fin p, Seen.other (.fail 1000) ∉ dataSeen b fin p := by
    intro b fin p g
    unfold dataSeen at g
    rcases List.mem_append.1 g with g | g
    · obtain ⟨_, -, g⟩ := List.mem_map.1 g; cases g
    · rw [List.mem_singleton] at g; cases g
  induction fs generalizing op with
  | nil => intro h; cases h
  | cons f fs ih =>
    obtain ⟨t, fin, p⟩ := f
    intro h
    cases t <;> rw [deliveredStrict] at h <;> (try split at h) <;> simp [data, ih] at h

/-- `f` is how the frame `c` comes on the wire; it is not a close frame. -/
structure Like (server : Bool) (c : FrameType × Bool × List UInt8) (f : Frame) : Prop where
  enc : f.Encoded server
  opcode : f.opcode = rfcOpcode c.1
  fin : f.fin = c.2.1
  payload : f.payload = c.2.2
  kind : (c.1 = .ping ∨ c.1 = .pong) ∧ c.2.1 = true ∧ c.2.2.length ≤ 125 ∨ c.1 = .continuation ∨ c.1 = .text ∨ c.1 = .binary

theorem receive_out_of_order (oc : List UInt8 → List Seen) (server : Bool) (frag : Nat) (f : Frame) (tail : List UInt8) (he : f.Encoded server)
    (h : (f.opcode = 0 ∧ frag = 0) ∨ ((f.opcode = 1 ∨ f.opcode = 2) ∧ frag ≠ 0)) : WsRecv.receive server oc frag (f.wire ++ tail) = [.other (.fail 1002)] := by
  obtain ⟨b0, b1, r, e0, e1, e2, e3, -, -⟩ := WsRecv.header_fields he.1
  have e : f.wire ++ tail = b0 :: b1 :: (r ++ WsRecv.unmask f.mask f.payload ++ tail) := by
    unfold Frame.wire; rw [e0]; simp
  rw [e]
  refine WsRecv.receive_malformed oc server frag b0 b1 _ ?_
  rcases h with ⟨h1, h2⟩ | ⟨h1, h2⟩
  · exact .inr (.inr (.inr (.inl ⟨by omega, h2⟩)))
  · exact .inr (.inr (.inr (.inr (.inl ⟨by omega, by omega, h2⟩))))

theorem receive_strict (oc : List UInt8 → List Seen) (server : Bool) (op : Option FrameType) (hop : op = none ∨ op = some .text ∨ op = some .binary)
    (cs : List (FrameType × Bool × List UInt8)) (fs : List Frame) (h : List.Forall₂ (Like server) cs fs) :
    WsRecv.receive server oc (fragOf op) (fs.flatMap Frame.wire) = deliveredStrict op cs := by
  induction h generalizing op with
  | nil => exact WsRecv.receive_nil ..
  | @cons c f cs fs h1 h2 ih =>
    obtain ⟨t, fin, p⟩ := c
    obtain ⟨he, ho, hf, hp, hk⟩ := h1
    dsimp only at ho hf hp hk
    rw [List.flatMap_cons]
    cases t with
    | ping =>
      have ho : f.opcode = 9 := ho
      have hk : fin = true ∧ p.length ≤ 125 := by simpa using hk
      rw [WsRecv.receive_frame oc server _ f _ he (.inl ⟨.inl ho, by rw [hf]; exact hk.1, by rw [hp]; exact hk.2⟩), show f.after (fragOf op) = fragOf op by simp [Frame.after, ho], ih op hop]
      simp [Frame.shown, ho, deliveredStrict, hp]
    | pong =>
      have ho : f.opcode = 10 := ho
      have hk : fin = true ∧ p.length ≤ 125 := by simpa using hk
      rw [WsRecv.receive_frame oc server _ f _ he (.inl ⟨.inr ho, by rw [hf]; exact hk.1, by rw [hp]; exact hk.2⟩), show f.after (fragOf op) = fragOf op by simp [Frame.after, ho], ih op hop]
      simp [Frame.shown, ho, deliveredStrict, hp]
    | close => simp at hk
    | continuation =>
      have ho : f.opcode = 0 := ho
      rw [deliveredStrict]
      rcases hop with rfl | rfl | rfl
      · rw [if_pos rfl, receive_out_of_order oc server (fragOf none) f _ he (.inl ⟨ho, rfl⟩)]
      · rw [if_neg (by simp), WsRecv.receive_frame oc server (fragOf (some .text)) f _ he (.inr (.inr ⟨ho, .inl rfl⟩)),
          show f.after (fragOf (some .text)) = fragOf (if fin then none else some .text) by cases fin <;> simp [Frame.after, ho, hf, Frame.kind, fragOf], ih _ (by cases fin <;> simp)]
        simp [Frame.shown, ho, hp, hf, dataSeen, Frame.kind, fragOf, rfcOpcode]
      · rw [if_neg (by simp), WsRecv.receive_frame oc server (fragOf (some .binary)) f _ he (.inr (.inr ⟨ho, .inr rfl⟩)),
          show f.after (fragOf (some .binary)) = fragOf (if fin then none else some .binary) by cases fin <;> simp [Frame.after, ho, hf, Frame.kind, fragOf], ih _ (by cases fin <;> simp)]
        simp [Frame.shown, ho, hp, hf, dataSeen, Frame.kind, fragOf, rfcOpcode]
    | text =>
      have ho : f.opcode = 1 := ho
      rw [deliveredStrict]
      rcases hop with rfl | rfl | rfl
      · rw [if_pos rfl, WsRecv.receive_frame oc server (fragOf none) f _ he (.inr (.inl ⟨.inl ho, rfl⟩)),
          show f.after (fragOf none) = fragOf (if fin then none else some .text) by cases fin <;> simp [Frame.after, ho, hf, Frame.kind, fragOf, rfcOpcode], ih _ (by cases fin <;> simp)]
        simp [Frame.shown, ho, hp, hf, dataSeen, Frame.kind]
      · rw [if_neg (by simp), receive_out_of_order oc server (fragOf (some .text)) f _ he (.inr ⟨.inl ho, by simp [fragOf, rfcOpcode]⟩)]
      · rw [if_neg (by simp), receive_out_of_order oc server (fragOf (some .binary)) f _ he (.inr ⟨.inl ho, by simp [fragOf, rfcOpcode]⟩)]
    | binary =>
      have ho : f.opcode = 2 := ho
      rw [deliveredStrict]
      rcases hop with rfl | rfl | rfl
      · rw [if_pos rfl, WsRecv.receive_frame oc server (fragOf none) f _ he (.inr (.inl ⟨.inr ho, rfl⟩)),
          show f.after (fragOf none) = fragOf (if fin then none else some .binary) by cases fin <;> simp [Frame.after, ho, hf, Frame.kind, fragOf, rfcOpcode], ih _ (by cases fin <;> simp)]
        simp [Frame.shown, ho, hp, hf, dataSeen, Frame.kind]
      · rw [if_neg (by simp), receive_out_of_order oc server (fragOf (some .text)) f _ he (.inr ⟨.inr ho, by simp [fragOf, rfcOpcode]⟩)]
      · rw [if_neg (by simp), receive_out_of_order oc server (fragOf (some .binary)) f _ he (.inr ⟨.inr ho, by simp [fragOf, rfcOpcode]⟩)]

theorem strict_noText (op : Option FrameType) (hop : op = none ∨ op = some .binary) (cs : List (FrameType × Bool × List UInt8)) (h : ∀ c ∈ cs, c.1 ≠ .text) : NoText (deliveredStrict op cs) := by
  have app : ∀ a b : List Seen, NoText a → NoText b → NoText (a ++ b) := fun a b ha hb x hx => (List.mem_append.1 hx).elim (ha x) (hb x)
  have nother : ∀ l : List WsRecv.Out, NoText (l.map Seen.other) := by intro l x hx; obtain ⟨y, -, rfl⟩ := List.mem_map.1 hx; simp
  have ndata : ∀ fin p, NoText (dataSeen true fin p) := by
    intro fin p x hx
    unfold dataSeen at hx
    rcases List.mem_append.1 hx with g | g
    · obtain ⟨b, -, rfl⟩ := List.mem_map.1 g; simp
    · rw [List.mem_singleton] at g; subst g; simp
  induction cs generalizing op with
  | nil => intro x hx; cases hx
  | cons c cs ih =>
    obtain ⟨t, fin, p⟩ := c
    have ih := fun op hop => ih op hop (fun c hc => h c (List.mem_cons_of_mem _ hc))
    cases t with
    | ping => exact app _ _ (nother [.control 9 p, .pong p]) (ih op hop)
    | pong => exact app _ _ (nother [.control 10 p]) (ih op hop)
    | close => intro x hx; cases hx
    | text => exact absurd rfl (h _ List.mem_cons_self)
    | binary =>
      rw [deliveredStrict]
      split
      · exact app _ _ (ndata fin p) (ih _ (by cases fin <;> simp))
      · exact nother [.fail 1002]
    | continuation =>
      rw [deliveredStrict]
      split
      · exact nother [.fail 1002]
      · next hne =>
        rcases hop with rfl | rfl
        · exact absurd rfl hne
        · exact app _ _ (by simpa using ndata fin p) (ih _ (by cases fin <;> simp))

theorem noTextSent_types (op : Option FrameType) (fs : List (FrameType × Bool × List UInt8)) (hb : NoTextSent op fs) : ∀ f ∈ fs, f.1 ≠ .text := by
  induction fs generalizing op with
  | nil => intro f hf; cases hf
  | cons f fs ih =>
    obtain ⟨t, fin, p⟩ := f
    intro g hg
    rcases List.mem_cons.1 hg with rfl | hg'
    · intro ht
      dsimp only at ht
      subst ht
      exact hb
    · cases t with
      | text => exact absurd hb id
      | continuation => exact ih _ hb.2 g hg'
      | binary => exact ih _ hb g hg'
      | ping => exact ih _ hb g hg'
      | pong => exact ih _ hb g hg'
      | close => exact ih _ hb g hg'

theorem copies_noText (cs : List Out1) (ws : List Write) (h : ∀ f ∈ cs.map Out1.frame, f.1 ≠ .text) : ∀ f ∈ copies cs ws, f.1 ≠ .text := by
  intro f hf
  unfold copies at hf
  obtain ⟨p, h1, h2⟩ := List.mem_flatMap.1 hf
  have hp : p.1.frame ∈ cs.map Out1.frame := List.mem_map.2 ⟨p.1, (List.of_mem_zip h1).1, rfl⟩
  have : f = p.1.frame := by split at h2 <;> simpa using h2
  rw [this]
  exact h _ hp

theorem frames_like (o : Endian.Order) (fromServer : Bool) (rng : Random.Rng) (cs : List Out1) (hok : ∀ c ∈ cs, c.Ok fromServer)
    (op : Option FrameType) (hop : op = none ∨ op = some .text ∨ op = some .binary) (hs : Sequence op (cs.map Out1.frame)) :
    ∃ fs, List.Forall₂ (Like (!fromServer)) (cs.map Out1.frame) fs ∧ ∀ k, wire o fromServer rng (cs.take k) = some ((fs.take k).map Frame.wire).flatten := by
  induction cs generalizing rng op with
  | nil => exact ⟨[], .nil, fun k => by simp [wire]⟩
  | cons c cs ih =>
    obtain ⟨r, more, e, em, f, hw, he, hf, ho, hpay⟩ := WsRoundTrip.sendFrame_frame o fromServer rng c (hok c List.mem_cons_self)
    have key : (((c.type = .ping ∨ c.type = .pong) ∧ c.fin = true ∧ c.payload.length ≤ 125) ∨ c.type = .continuation ∨ c.type = .text ∨ c.type = .binary) ∧
        ∃ op', (op' = none ∨ op' = some .text ∨ op' = some .binary) ∧ Sequence op' (cs.map Out1.frame) := by
      rw [List.map_cons] at hs
      have hfr : c.frame = (c.type, c.fin, c.payload) := rfl
      rw [hfr] at hs
      cases ht : c.type with
      | ping => rw [ht] at hs; exact ⟨.inl ⟨.inl rfl, hs.1, hs.2.1⟩, op, hop, hs.2.2⟩
      | pong => rw [ht] at hs; exact ⟨.inl ⟨.inr rfl, hs.1, hs.2.1⟩, op, hop, hs.2.2⟩
      | close => rw [ht] at hs; exact absurd hs id
      | text =>
        rw [ht] at hs
        exact ⟨.inr (.inr (.inl rfl)), _, by cases c.fin <;> simp, hs.2⟩
      | continuation =>
        rw [ht] at hs
        exact ⟨.inr (.inl rfl), _, by cases c.fin <;> simp [hop], hs.2⟩
      | binary =>
        rw [ht] at hs
        exact ⟨.inr (.inr (.inr rfl)), _, by cases c.fin <;> simp, hs.2⟩
    obtain ⟨k1, op', k2, k3⟩ := key
    obtain ⟨fs, w1, w2⟩ := ih r.rng (fun c hc => hok c (List.mem_cons_of_mem _ hc)) op' k2 k3
    refine ⟨f :: fs, .cons ⟨he, ho, hf, hpay, k1⟩ w1, fun k => ?_⟩
    cases k with
    | zero => simp [wire]
    | succ k =>
      rw [List.take_succ_cons, wire, e]
      simp only [Option.bind_eq_bind, Option.bind_some, em, w2 k, pure]
      rw [List.take_succ_cons, List.map_cons, List.flatten_cons, hw]

theorem copies_like (server : Bool) (cs : List Out1) (fs : List Frame) (hw : List.Forall₂ (Like server) (cs.map Out1.frame) fs) (ws : List Write)
    (ha : ws.map Write.asked <+: fs.map Frame.wire) :
    ws.flatMap Write.sends = (wireCopies fs ws).flatMap Frame.wire ∧ List.Forall₂ (Like server) (copies cs ws) (wireCopies fs ws) := by
  induction cs generalizing fs ws with
  | nil =>
    cases hw
    cases ws with
    | nil => exact ⟨rfl, .nil⟩
    | cons x ws => exact absurd (List.prefix_nil.1 ha) (by simp)
  | cons c cs ih =>
    rw [List.map_cons] at hw
    cases hw with
    | @cons _ f _ fs h hw =>
    cases ws with
    | nil => exact ⟨rfl, .nil⟩
    | cons x ws =>
      rw [List.map_cons, List.map_cons, List.cons_prefix_cons] at ha
      obtain ⟨ha, hrest⟩ := ha
      obtain ⟨i1, i2⟩ := ih fs hw ws hrest
      by_cases hf : FirstEndsEarly x.chain x.answers
      · have e1 : wireCopies (f :: fs) (x :: ws) = f :: wireCopies fs ws := by simp [wireCopies, hf]
        have e2 : copies (c :: cs) (x :: ws) = c.frame :: copies cs ws := by simp [copies, hf]
        rw [e1, e2]
        refine ⟨?_, .cons h i2⟩
        rw [List.flatMap_cons, List.flatMap_cons, i1]
        simp [Write.sends, hf, ha]
      · have e1 : wireCopies (f :: fs) (x :: ws) = f :: f :: wireCopies fs ws := by simp [wireCopies, hf]
        have e2 : copies (c :: cs) (x :: ws) = c.frame :: c.frame :: copies cs ws := by simp [copies, hf]
        rw [e1, e2]
        refine ⟨?_, .cons h (.cons h i2)⟩
        rw [List.flatMap_cons, List.flatMap_cons, List.flatMap_cons, i1]
        simp [Write.sends, hf, ha]

/-- C127, all binary messages, whole or in several frames (and pings and pongs), each frame written with one write.  At any moment the application of the other side has seen a beginning of what RFC 6455
makes of the frames, some of which come twice: so a repeated first or last frame of a message in several frames makes the connection fail (then, if its transport failed, that); once all that was
written so far has arrived and has been read, all of it; if the connection failed with status 1002, all of it; and if it ended (status 1000), the side has closed and all of it was seen before. -/
theorem fragments_exact (o : Endian.Order) (fromServer : Bool) (rng : Random.Rng) (cs : List Out1) (hok : ∀ c ∈ cs, c.Ok fromServer)
    (hs : Sequence none (cs.map Out1.frame)) (hb : NoTextSent none (cs.map Out1.frame)) :
    ∃ chunks : List (List UInt8), chunks.length = cs.length ∧ (∀ k, wire o fromServer rng (cs.take k) = some (chunks.take k).flatten) ∧
      ∀ (quiet : Bool) (E : Bool → Env) (c : Bool → Bool) (mem : Bool → List UInt8) (n : Net) (i : Bool), (∀ i, 125 ≤ (mem i).length) → Reach quiet E c mem n →
        (E !i).server = !fromServer → AskedEach (n.sys i) chunks →
        (∃ part, part <+: deliveredStrict none (copies cs (n.sys i).writes) ∧
          (seen (shown (E !i) (n.sys !i).br) = part ∨ ∃ err ∈ (n.sys !i).br.transportErrs, seen (shown (E !i) (n.sys !i).br) = part ++ [.other (.fail (codeOf err))])) ∧
        ((∀ x ∈ (n.sys i).writes, Succeeded x) → n.flying i = [] → (n.sys !i).sock.incoming = [] → (n.sys !i).br.waiting = true → (n.sys !i).br.closed = false →
          seen (shown (E !i) (n.sys !i).br) = deliveredStrict none (copies cs (n.sys i).writes)) ∧
        (.other (.fail 1002) ∈ seen (shown (E !i) (n.sys !i).br) →
          deliveredStrict none (copies cs (n.sys i).writes) <+: seen (shown (E !i) (n.sys !i).br)) ∧
        ((∀ x ∈ (n.sys i).writes, Succeeded x) → .other (.fail 1000) ∈ seen (shown (E !i) (n.sys !i).br) →
          (n.sys i).br.closed = true ∧ seen (shown (E !i) (n.sys !i).br) = deliveredStrict none (copies cs (n.sys i).writes) ++ [.other (.fail 1000)]) := by
  obtain ⟨fs, f1, f2⟩ := frames_like o fromServer rng cs hok none (.inl rfl) hs
  refine ⟨fs.map Frame.wire, by rw [List.length_map, ← f1.length_eq, List.length_map], fun k => by rw [f2, List.map_take], fun quiet E c mem n i hmem h hserver ha => ?_⟩
  obtain ⟨g1, g2⟩ := copies_like (!fromServer) cs fs f1 (n.sys i).writes ha.each
  obtain ⟨xs, x1, -, x2⟩ := shown_of_received hmem h (!i)
  obtain ⟨r1, r2⟩ := received_is_sent hmem h i
  obtain ⟨o1, o2⟩ := outgoing_of_sends hmem h i
  rw [g1] at o1 o2
  have key : ∀ ps, streamOf ps = (wireCopies fs (n.sys i).writes).flatMap Frame.wire →
      seen (outsOf (E !i).o (E !i).server (E !i).selfClose (E !i).utf8 ps) = deliveredStrict none (copies cs (n.sys i).writes) := by
    intro ps hps
    have q1 := receive_strict (onClose (E !i).o (E !i).selfClose) (!fromServer) none (.inl rfl) _ _ g2
    have q2 := strict_noText none (.inl rfl) _ (copies_noText cs (n.sys i).writes (noTextSent_types none _ hb))
    rw [hserver, WsRecv.binary_received_as_specified]
    · rw [hps]; exact q1
    · rw [hps]
      have q1 : WsRecv.receive (!fromServer) (onClose (E !i).o (E !i).selfClose) 0 _ = _ := q1
      rw [q1]; exact q2
  obtain ⟨ps, p1, p2, p3⟩ := WsStream.stream_refines (E !i) (mem !i) (hmem !i) xs _ x1
  have hall : seen (outsOf (E !i).o (E !i).server (E !i).selfClose (E !i).utf8 ps) <+: deliveredStrict none (copies cs (n.sys i).writes) := by
    obtain ⟨rest, hrest⟩ := r1.trans (o1 ha.ok)
    have := WsStream.outsOf_prefix (E !i).o (E !i).server (E !i).selfClose (E !i).utf8 ps [(0, rest)]
    rwa [key (ps ++ [(0, rest)]) (by
      rw [← hrest, ← x2, ← WsStream.streamOf_of ps _ p1]; simp [streamOf])] at this
  have hpart : ∃ part, part <+: deliveredStrict none (copies cs (n.sys i).writes) ∧
      (seen (shown (E !i) (n.sys !i).br) = part ∨ ∃ err ∈ (n.sys !i).br.transportErrs, seen (shown (E !i) (n.sys !i).br) = part ++ [.other (.fail (codeOf err))]) := by
    rcases p2 with ⟨t, p2⟩ | ⟨err, q1, q2⟩
    · refine ⟨seen (shown (E !i) (n.sys !i).br), List.IsPrefix.trans ⟨seen t, ?_⟩ hall, .inl rfl⟩
      rw [← WsRecv.seen_append, p2]
    · refine ⟨_, hall, .inr ⟨err, q1, ?_⟩⟩
      rw [q2, WsRecv.seen_append]; rfl
  refine ⟨hpart, fun hsucc hf hinc hw hcl => ?_, fun hfail => ?_, fun hsucc hend => ?_⟩
  · rw [p3 (.inl hw)]
    exact key ps (by rw [WsStream.streamOf_of ps _ p1, x2, r2 hcl hf hinc, o2 hsucc])
  · obtain ⟨part, h1, h2⟩ := hpart
    rcases h2 with h2 | ⟨err, -, h2⟩
    · rw [h2] at hfail ⊢
      rw [← strict_fail_last none _ part h1 hfail]
    · rw [h2] at hfail ⊢
      rcases List.mem_append.1 hfail with g | g
      · rw [← strict_fail_last none _ part h1 g]
        exact List.prefix_append _ _
      · rw [List.mem_singleton] at g
        injection g with g
        injection g with g
        unfold codeOf at g
        split at g <;> exact absurd g (by decide)
  · have hnot : Seen.other (.fail 1000) ∉ seen (outsOf (E !i).o (E !i).server (E !i).selfClose (E !i).utf8 ps) :=
      fun g => strict_not_ended none _ (hall.subset g)
    rcases p2 with ⟨t, p2⟩ | ⟨err, q1, q2⟩
    · refine absurd ?_ hnot
      rw [← p2, WsRecv.seen_append]; exact List.mem_append_left _ hend
    · have herr : err = EOF := by
        rw [q2, WsRecv.seen_append] at hend
        rcases List.mem_append.1 hend with g | g
        · exact absurd g hnot
        · have g : Seen.other (.fail 1000) ∈ [Seen.other (.fail (codeOf err))] := g
          rw [List.mem_singleton] at g
          injection g with g
          injection g with g
          unfold codeOf at g
          by_cases hz : err = EOF
          · exact hz
          · rw [if_neg hz] at g; exact absurd g (by decide)
      rw [herr] at q1 q2
      obtain ⟨e1, e2⟩ := end_is_true hmem h i q1
      refine ⟨e1, ?_⟩
      rw [q2, WsRecv.seen_append, key ps (by rw [WsStream.streamOf_of ps _ p1, x2, e2, o2 hsucc])]
      rfl

/-- C127, from application to application, partial as `queued_messages_arrive_partial` but without a condition on what `sendmsg` accepts: messages and pings queued at one WebSocket (`Cio.WsQueue`), each
frame given as a whole, no text. -/
theorem queued_frames_exact_partial {s : WsQueue.State} (hq : WsQueue.Reach s) (hc : WsQueue.Clean s)
    (hw : ∀ f ∈ WsQueue.framesBC s.w.log, f.cont = false ∧ f.announced = f.size) (o : Endian.Order) (fromServer : Bool) (rng : Random.Rng) (cs : List Out1)
    (hr : List.Forall₂ WsRoundTrip.Realises cs (WsQueue.framesBC s.w.log)) (hok : ∀ c ∈ cs, c.Ok fromServer) (hb : NoTextSent none (cs.map Out1.frame)) :
    ∃ chunks : List (List UInt8), chunks.length = cs.length ∧ (∀ k, wire o fromServer rng (cs.take k) = some (chunks.take k).flatten) ∧
      ∀ (quiet : Bool) (E : Bool → Env) (c : Bool → Bool) (mem : Bool → List UInt8) (n : Net) (i : Bool), (∀ i, 125 ≤ (mem i).length) → Reach quiet E c mem n →
        (E !i).server = !fromServer → AskedEach (n.sys i) chunks →
        (∃ part, part <+: deliveredStrict none (copies cs (n.sys i).writes) ∧
          (seen (shown (E !i) (n.sys !i).br) = part ∨ ∃ err ∈ (n.sys !i).br.transportErrs, seen (shown (E !i) (n.sys !i).br) = part ++ [.other (.fail (codeOf err))])) ∧
        ((∀ x ∈ (n.sys i).writes, Succeeded x) → n.flying i = [] → (n.sys !i).sock.incoming = [] → (n.sys !i).br.waiting = true → (n.sys !i).br.closed = false →
          seen (shown (E !i) (n.sys !i).br) = deliveredStrict none (copies cs (n.sys i).writes)) ∧
        (.other (.fail 1002) ∈ seen (shown (E !i) (n.sys !i).br) →
          deliveredStrict none (copies cs (n.sys i).writes) <+: seen (shown (E !i) (n.sys !i).br)) ∧
        ((∀ x ∈ (n.sys i).writes, Succeeded x) → .other (.fail 1000) ∈ seen (shown (E !i) (n.sys !i).br) →
          (n.sys i).br.closed = true ∧ seen (shown (E !i) (n.sys !i).br) = deliveredStrict none (copies cs (n.sys i).writes) ++ [.other (.fail 1000)]) :=
  fragments_exact o fromServer rng cs hok
    (WsRoundTrip.sequence_of_legal cs _ hr (fun f hf => (hw f hf).1) none true (.inl rfl) (by simp) (WsQueue.frames_legal_partial hq hc)) hb

/-! ### Nothing gets stuck -/

/-- What is seen of such frames, on their way. -/
theorem strict_seen (e : Env) (mem : List UInt8) (hmem : 125 ≤ mem.length) (xs : List WsStream.Ev) (w : BufferedRead.World) (hr : WsStream.Reach e mem xs w)
    (cs : List (FrameType × Bool × List UInt8)) (fs : List Frame) (h : List.Forall₂ (Like e.server) cs fs) (hn : ∀ c ∈ cs, c.1 ≠ .text) (hp : (WsStream.deliveries xs).flatten <+: fs.flatMap Frame.wire) :
    (∃ part, part <+: deliveredStrict none cs ∧ (seen (shown e w) = part ∨ ∃ err ∈ w.transportErrs, seen (shown e w) = part ++ [.other (.fail (codeOf err))])) ∧
    ((WsStream.deliveries xs).flatten = fs.flatMap Frame.wire → w.waiting = true → seen (shown e w) = deliveredStrict none cs) := by
  have key : ∀ ps, streamOf ps = fs.flatMap Frame.wire → seen (outsOf e.o e.server e.selfClose e.utf8 ps) = deliveredStrict none cs := by
    intro ps hps
    have q1 := receive_strict (onClose e.o e.selfClose) e.server none (.inl rfl) _ _ h
    have q2 := strict_noText none (.inl rfl) _ hn
    have q1 : WsRecv.receive e.server (onClose e.o e.selfClose) 0 _ = _ := q1
    rw [WsRecv.binary_received_as_specified]
    · rw [hps]; exact q1
    · rw [hps, q1]; exact q2
  obtain ⟨ps, p1, p2, p3⟩ := WsStream.stream_refines e mem hmem xs w hr
  obtain ⟨rest, hrest⟩ := hp
  have hall : seen (outsOf e.o e.server e.selfClose e.utf8 ps) <+: deliveredStrict none cs := by
    have := WsStream.outsOf_prefix e.o e.server e.selfClose e.utf8 ps [(0, rest)]
    rwa [key (ps ++ [(0, rest)]) (by
      rw [← hrest, ← WsStream.streamOf_of ps _ p1]; simp [streamOf])] at this
  constructor
  · rcases p2 with ⟨t, p2⟩ | ⟨err, q1, q2⟩
    · refine ⟨seen (shown e w), List.IsPrefix.trans ⟨seen t, ?_⟩ hall, .inl rfl⟩
      rw [← WsRecv.seen_append, p2]
    · refine ⟨_, hall, .inr ⟨err, q1, ?_⟩⟩
      rw [q2, WsRecv.seen_append]; rfl
  · intro hd hw
    rw [p3 (.inl hw)]
    exact key ps (by rw [WsStream.streamOf_of ps _ p1]; exact hd)

theorem strict_not_final (op : Option FrameType) (fs : List (FrameType × Bool × List UInt8)) (x : WsRecv.Out) (hx : Seen.other x ∈ deliveredStrict op fs)
    (h : Seen.other (.fail 1002) ∉ deliveredStrict op fs) : final x = false := by
  have data : ∀ b fin p, Seen.other x ∉ dataSeen b fin p := by
    intro b fin p g
    unfold dataSeen at g
    rcases List.mem_append.1 g with g | g
    · obtain ⟨_, -, g⟩ := List.mem_map.1 g; cases g
    · rw [List.mem_singleton] at g; cases g
  induction fs generalizing op with
  | nil => cases hx
  | cons f fs ih =>
    obtain ⟨t, fin, p⟩ := f
    have app : ∀ a op', (Seen.other x ∈ a → final x = false) → Seen.other x ∈ a ++ deliveredStrict op' fs → Seen.other (.fail 1002) ∉ a ++ deliveredStrict op' fs → final x = false := by
      intro a op' ha g1 g2
      rcases List.mem_append.1 g1 with g | g
      · exact ha g
      · exact ih op' g fun k => g2 (List.mem_append_right _ k)
    cases t with
    | ping =>
      refine app [.other (.control 9 p), .other (.pong p)] op (fun g => ?_) hx h
      simp at g
      rcases g with rfl | rfl <;> rfl
    | pong =>
      refine app [.other (.control 10 p)] op (fun g => ?_) hx h
      simp at g
      subst g; rfl
    | close => cases hx
    | continuation =>
      rw [deliveredStrict] at hx h
      split at hx
      · next g => rw [if_pos g] at h; exact absurd (List.mem_singleton.2 rfl) h
      · next g => rw [if_neg g] at h; exact app _ _ (fun g => absurd g (data _ _ _)) hx h
    | text =>
      rw [deliveredStrict] at hx h
      split at hx
      · next g => rw [if_pos g] at h; exact app _ _ (fun g => absurd g (data _ _ _)) hx h
      · next g => rw [if_neg g] at h; exact absurd (List.mem_singleton.2 rfl) h
    | binary =>
      rw [deliveredStrict] at hx h
      split at hx
      · next g => rw [if_pos g] at h; exact app _ _ (fun g => absurd g (data _ _ _)) hx h
      · next g => rw [if_neg g] at h; exact absurd (List.mem_singleton.2 rfl) h

/-- C127, nothing gets stuck, with messages in several frames: as `everything_can_arrive_exact`, if no frame comes twice whose repetition is a protocol error. -/
theorem fragments_can_arrive (o : Endian.Order) (fromServer : Bool) (rng : Random.Rng) (cs : List Out1) (hok : ∀ c ∈ cs, c.Ok fromServer)
    (hs : Sequence none (cs.map Out1.frame)) (hb : NoTextSent none (cs.map Out1.frame)) :
    ∃ chunks : List (List UInt8), chunks.length = cs.length ∧ (∀ k, wire o fromServer rng (cs.take k) = some (chunks.take k).flatten) ∧
      ∀ (E : Bool → Env) (c : Bool → Bool) (mem : Bool → List UInt8) (n : Net) (i : Bool), (∀ i, 125 ≤ (mem i).length) → Reach true E c mem n →
        (E !i).server = !fromServer → (n.sys i).writes.map Write.asked <+: chunks → (∀ x ∈ (n.sys i).writes, Succeeded x) →
        .other (.fail 1002) ∉ deliveredStrict none (copies cs (n.sys i).writes) → (n.sys !i).br.closed = false → (n.sys !i).br.transportErrs = [] → (n.sys !i).busy = false →
        ∃ n', Leads true E c i n n' ∧ (n'.sys !i).br.closed = false ∧ (n'.sys !i).br.transportErrs = [] ∧ (n'.sys !i).br.waiting = true ∧
          seen (shown (E !i) (n'.sys !i).br) = deliveredStrict none (copies cs (n.sys i).writes) := by
  obtain ⟨fs, f1, f2⟩ := frames_like o fromServer rng cs hok none (.inl rfl) hs
  refine ⟨fs.map Frame.wire, by rw [List.length_map, ← f1.length_eq, List.length_map], fun k => by rw [f2, List.map_take],
    fun E c mem n i hmem h hserver ha hall hnf hcl hte hbusy => ?_⟩
  obtain ⟨g1, g2⟩ := copies_like (!fromServer) cs fs f1 (n.sys i).writes ha
  have hnt := copies_noText cs (n.sys i).writes (noTextSent_types none _ hb)
  have hout : (n.sys i).sock.outgoing = (wireCopies fs (n.sys i).writes).flatMap Frame.wire := by rw [(outgoing_of_sends hmem h i).2 hall, g1]
  have hh : Harmless (E !i) (mem !i) (n.sys i).sock.outgoing := by
    intro xs w hx hp ht hst
    rw [hout] at hp
    obtain ⟨⟨part, p1, p2⟩, -⟩ := strict_seen (E !i) (mem !i) (hmem !i) xs w hx _ _ (hserver ▸ g2) hnt (by rw [(WsStream.reach_inv (E !i) (hmem !i) hx).good.got]; exact hp)
    obtain ⟨x, x1, x2⟩ := stopped_shown (E !i) w hst
    have hx' := final_seen x1 x2
    rcases p2 with g | ⟨err, g, -⟩
    · rw [g] at hx'
      rw [strict_not_final none _ x (p1.subset hx') hnf] at x2
      cases x2
    · rw [ht] at g; cases g
  obtain ⟨n', l, c1, c2, c3, c4, c5, c6⟩ := can_arrive hmem h i hh hcl hte hbusy
  refine ⟨n', l, c1, c2, c3, ?_⟩
  have r' := l.reach h
  obtain ⟨xs, x1, -, x2⟩ := shown_of_received hmem r' (!i)
  have hd : (WsStream.deliveries xs).flatten = (wireCopies fs (n.sys i).writes).flatMap Frame.wire := by rw [x2, (received_is_sent hmem r' i).2 c1 c5 c6, c4, hout]
  exact (strict_seen (E !i) (mem !i) (hmem !i) xs _ x1 _ _ (hserver ▸ g2) hnt (by rw [hd])).2 hd c3

/-! ### Text -/

/-- C127 with text, in one or several frames: when all that was written has arrived and the receiver waits for more, its application has seen exactly what RFC 6455 makes of the frames, some of which come
twice, if and only if the text in these is well-formed as far as it goes and no piece that the receiving socket hands to its stream ends within a character of a final frame. -/
theorem text_fragments_exact (o : Endian.Order) (fromServer : Bool) (rng : Random.Rng) (cs : List Out1) (hok : ∀ c ∈ cs, c.Ok fromServer)
    (hs : Sequence none (cs.map Out1.frame)) :
    ∃ chunks : List (List UInt8), chunks.length = cs.length ∧ (∀ k, wire o fromServer rng (cs.take k) = some (chunks.take k).flatten) ∧
      ∀ (quiet : Bool) (E : Bool → Env) (c : Bool → Bool) (mem : Bool → List UInt8) (n : Net) (i : Bool), (∀ i, 125 ≤ (mem i).length) → Reach quiet E c mem n →
        (E !i).server = !fromServer → (n.sys i).writes.map Write.asked <+: chunks → (∀ x ∈ (n.sys i).writes, Succeeded x) → n.flying i = [] → (n.sys !i).sock.incoming = [] →
        (n.sys !i).br.waiting = true → (n.sys !i).br.closed = false →
        (seen (shown (E !i) (n.sys !i).br) = deliveredStrict none (copies cs (n.sys i).writes) ↔
          WsRoundTrip.TextFine (!fromServer) (onClose (E !i).o (E !i).selfClose) (deliveredStrict none (copies cs (n.sys i).writes)) (WsStream.pieces0 (pieces (n.sys !i).sock.log))) := by
  obtain ⟨fs, f1, f2⟩ := frames_like o fromServer rng cs hok none (.inl rfl) hs
  refine ⟨fs.map Frame.wire, by rw [List.length_map, ← f1.length_eq, List.length_map], fun k => by rw [f2, List.map_take],
    fun quiet E c mem n i hmem h hserver ha hall hf hinc hw hcl => ?_⟩
  obtain ⟨g1, g2⟩ := copies_like (!fromServer) cs fs f1 (n.sys i).writes ha
  obtain ⟨xs, x1, x2, x3⟩ := shown_of_received hmem h (!i)
  have hd : (WsStream.deliveries xs).flatten = (wireCopies fs (n.sys i).writes).flatMap Frame.wire := by
    rw [x3, (received_is_sent hmem h i).2 hcl hf hinc, (outgoing_of_sends hmem h i).2 hall, g1]
  have q1 := receive_strict (onClose (E !i).o (E !i).selfClose) (!fromServer) none (.inl rfl) _ _ g2
  have q1 : WsRecv.receive (!fromServer) (onClose (E !i).o (E !i).selfClose) 0 _ = _ := q1
  have key := WsStream.stream_received_iff (E !i) (mem !i) (hmem !i) xs _ x1 (.inl hw)
  rw [hd, hserver, q1] at key
  rw [key, ← x2]
  have e1 : streamOf (WsStream.pieces0 (WsStream.deliveries xs)) = (wireCopies fs (n.sys i).writes).flatMap Frame.wire := by
    rw [WsStream.streamOf_of _ (WsStream.deliveries xs) (by simp [WsStream.pieces0]), hd]
  constructor
  · intro ht
    exact ⟨by have := ht.complete; rwa [e1, q1] at this, by have := ht.pending; rwa [e1, q1] at this, ht.uncut⟩
  · intro ht
    exact ⟨by rw [e1, q1]; exact ht.complete, by rw [e1, q1]; exact ht.pending, ht.uncut⟩

/-- C127 with text, from application to application, partial as `queued_frames_exact_partial`: messages and pings queued at one WebSocket, each frame given as a whole. -/
theorem queued_text_exact_partial {s : WsQueue.State} (hq : WsQueue.Reach s) (hc : WsQueue.Clean s)
    (hw : ∀ f ∈ WsQueue.framesBC s.w.log, f.cont = false ∧ f.announced = f.size) (o : Endian.Order) (fromServer : Bool) (rng : Random.Rng) (cs : List Out1)
    (hr : List.Forall₂ WsRoundTrip.Realises cs (WsQueue.framesBC s.w.log)) (hok : ∀ c ∈ cs, c.Ok fromServer) :
    ∃ chunks : List (List UInt8), chunks.length = cs.length ∧ (∀ k, wire o fromServer rng (cs.take k) = some (chunks.take k).flatten) ∧
      ∀ (quiet : Bool) (E : Bool → Env) (c : Bool → Bool) (mem : Bool → List UInt8) (n : Net) (i : Bool), (∀ i, 125 ≤ (mem i).length) → Reach quiet E c mem n →
        (E !i).server = !fromServer → (n.sys i).writes.map Write.asked <+: chunks → (∀ x ∈ (n.sys i).writes, Succeeded x) → n.flying i = [] → (n.sys !i).sock.incoming = [] →
        (n.sys !i).br.waiting = true → (n.sys !i).br.closed = false →
        (seen (shown (E !i) (n.sys !i).br) = deliveredStrict none (copies cs (n.sys i).writes) ↔
          WsRoundTrip.TextFine (!fromServer) (onClose (E !i).o (E !i).selfClose) (deliveredStrict none (copies cs (n.sys i).writes)) (WsStream.pieces0 (pieces (n.sys !i).sock.log))) :=
  text_fragments_exact o fromServer rng cs hok
    (WsRoundTrip.sequence_of_legal cs _ hr (fun f hf => (hw f hf).1) none true (.inl rfl) (by simp) (WsQueue.frames_legal_partial hq hc))

/-! ### When nothing is repeated -/

/-- Where every write is one that buffered_stream.c gets right, each frame comes once: then the claims are those of C66. -/
theorem copies_early (cs : List Out1) (ws : List Write) (h : ∀ x ∈ ws, FirstEndsEarly x.chain x.answers) : copies cs ws = (cs.take ws.length).map Out1.frame := by
  induction ws generalizing cs with
  | nil => simp [copies]
  | cons x ws ih =>
    cases cs with
    | nil => rfl
    | cons c cs =>
      have e : copies (c :: cs) (x :: ws) = c.frame :: copies cs ws := by simp [copies, h x List.mem_cons_self]
      rw [e, ih cs (fun y hy => h y (List.mem_cons_of_mem _ hy))]
      rfl

/-- Each frame comes once or twice, in order, and none that was not sent: without its repetitions the list is what was sent. -/
theorem copies_once_or_twice (cs : List Out1) (ws : List Write) :
    ∃ ks : List Nat, ks.length = min cs.length ws.length ∧ (∀ k ∈ ks, k = 1 ∨ k = 2) ∧ copies cs ws = (cs.zip ks).flatMap (fun p => List.replicate p.2 p.1.frame) := by
  induction cs generalizing ws with
  | nil => exact ⟨[], by simp, by simp, by simp [copies]⟩
  | cons c cs ih =>
    cases ws with
    | nil => exact ⟨[], by simp, by simp, by simp [copies]⟩
    | cons x ws =>
      obtain ⟨ks, k1, k2, k3⟩ := ih ws
      by_cases hf : FirstEndsEarly x.chain x.answers
      · refine ⟨1 :: ks, by simp [k1, Nat.succ_min_succ], by simpa using k2, ?_⟩
        have e : copies (c :: cs) (x :: ws) = c.frame :: copies cs ws := by simp [copies, hf]
        rw [e, k3]; rfl
      · refine ⟨2 :: ks, by simp [k1, Nat.succ_min_succ], by simpa using k2, ?_⟩
        have e : copies (c :: cs) (x :: ws) = c.frame :: c.frame :: copies cs ws := by simp [copies, hf]
        rw [e, k3]; rfl

theorem sequence_take (op : Option FrameType) (fs : List (FrameType × Bool × List UInt8)) (h : Sequence op fs) (k : Nat) : Sequence op (fs.take k) := by
  induction fs generalizing op k with
  | nil => rw [List.take_nil]; exact h
  | cons f fs ih =>
    cases k with
    | zero => rw [List.take_zero]; trivial
    | succ k =>
      rw [List.take_succ_cons]
      obtain ⟨t, fin, p⟩ := f
      cases t with
      | ping => exact ⟨h.1, h.2.1, ih op h.2.2 k⟩
      | pong => exact ⟨h.1, h.2.1, ih op h.2.2 k⟩
      | close => exact absurd h id
      | continuation => exact ⟨h.1, ih _ h.2 k⟩
      | text => exact ⟨h.1, ih _ h.2 k⟩
      | binary => exact ⟨h.1, ih _ h.2 k⟩

/-- So the hypothesis of `fragments_can_arrive` is met whenever every write is one that buffered_stream.c gets right. -/
theorem no_failure_if_early (cs : List Out1) (hs : Sequence none (cs.map Out1.frame)) (ws : List Write) (h : ∀ x ∈ ws, FirstEndsEarly x.chain x.answers) :
    Seen.other (.fail 1002) ∉ deliveredStrict none (copies cs ws) := by
  have e : Sequence none (copies cs ws) := by rw [copies_early cs ws h, List.map_take]; exact sequence_take _ _ hs _
  rw [strict_of_legal none _ e]
  intro g
  have := delivered_not_final none _ _ g
  cases this

/-! ### A run -/

/-- A message of four bytes in two frames. -/
def exFrag : List Out1 :=
  [{ type := .binary, fin := false, hdr := List.replicate 14 0, mem := fun a => if a = 0 then 0x82 else 1, saved := fun _ => 0, chain := [(0, 2)] },
   { type := .continuation, fin := true, hdr := List.replicate 14 0, mem := fun a => if a = 0 then 0x82 else 1, saved := fun _ => 0, chain := [(0, 2)] }]

/-- The server writes the two frames; the first `sendmsg` accepts all but the last byte. -/
def exFragRun : List Ev :=
  [.app true .enter, .app true (.user (.read (.atLeast 1)) fine), .app true (.loop fine), .app true .leave,
   .app false .enter, .app false (.write [⟨7, [0x02, 2]⟩, ⟨8, [0x82, 1]⟩]), .app false (.send (.sent 3)), .app false (.send (.sent 100)),
   .app false (.write [⟨7, [0x80, 2]⟩, ⟨8, [0x82, 1]⟩]), .app false (.send (.sent 100)), .carry false 100,
   .app true (.readable (.bytes 100)), .app true (.loop fine), .app true (.loop fine), .app true (.loop fine), .app true (.loop fine),
   .app true (.user (.read (.atLeast 1)) fine), .app true (.loop fine)]

set_option maxRecDepth 40000 in
theorem frag_view : (runOk true exE exC (initial exC exMem) exFragRun).map eachView =
    some ⟨[[0x02, 2, 0x82, 1], [0x80, 2, 0x82, 1]], [false, true], [[SUCCESS], [SUCCESS]], [], [], false, false, dataSeen true false [0x82, 1] ++ [.other (.fail 1002)]⟩ := by decide +kernel

example : Sequence none (exFrag.map Out1.frame) ∧ NoTextSent none (exFrag.map Out1.frame) ∧
    wire .little true (Random.srandom 1 2) exFrag = some [0x02, 2, 0x82, 1, 0x80, 2, 0x82, 1] := by
  refine ⟨?_, ?_, by decide +kernel⟩ <;> simp [exFrag, Out1.frame, Sequence, NoTextSent]

/-- A message in two frames never arrives, though nothing went wrong but for one short write and the sender was told of success twice: its first frame comes twice, and the receiver lets the connection fail
because of a protocol error.  The hypotheses of `fragments_exact` are met, also that of its last part. -/
theorem fragmented_message_lost : ∃ n, Reach true exE exC exMem n ∧ (exE !false).server = !true ∧ AskedEach (n.sys false) [[0x02, 2, 0x82, 1], [0x80, 2, 0x82, 1]] ∧
    (∀ x ∈ (n.sys false).writes, Succeeded x) ∧ (n.sys !false).br.transportErrs = [] ∧
    seen (shown (exE !false) (n.sys !false).br) = dataSeen true false [0x82, 1] ++ [.other (.fail 1002)] ∧
    deliveredStrict none (copies exFrag (n.sys false).writes) = dataSeen true false [0x82, 1] ++ [.other (.fail 1002)] := by
  cases hr : runOk true exE exC (initial exC exMem) exFragRun with
  | none => have := frag_view; rw [hr] at this; cases this
  | some n =>
    have hv := frag_view
    have he : (n.sys true).br.transportErrs = [] := by
      have : (runOk true exE exC (initial exC exMem) exFragRun).map (fun n => (n.sys true).br.transportErrs) = some [] := by decide +kernel
      rw [hr] at this
      injection this
    rw [hr, Option.map_some, Option.some.injEq] at hv
    unfold eachView at hv
    simp only [EachView.mk.injEq] at hv
    obtain ⟨v1, v2, v3, -, -, -, -, hs⟩ := hv
    have hall : ∀ x ∈ (n.sys false).writes, Succeeded x := by
      intro x hx
      have hm : x.world.calls.map (·.1) ∈ [[SUCCESS], [SUCCESS]] := by rw [← v3]; exact List.mem_map.2 ⟨x, hx, rfl⟩
      have hm : x.world.calls.map (·.1) = [SUCCESS] := by simpa using hm
      obtain ⟨⟨a, ch⟩, ha, hb⟩ := List.mem_map.1 (show SUCCESS ∈ x.world.calls.map (·.1) by rw [hm]; exact List.mem_singleton.2 rfl)
      dsimp only at hb
      subst hb
      exact ⟨ch, ha⟩
    refine ⟨n, runOk_reach _ .init hr, rfl, ⟨by rw [v1], fun x hx => hall x (List.dropLast_subset _ hx)⟩, hall, he, hs, ?_⟩
    match hw : (n.sys false).writes with
    | [] => rw [hw] at v2; cases v2
    | [_] => rw [hw] at v2; simp at v2
    | _ :: _ :: _ :: _ => rw [hw] at v2; simp at v2
    | [x, y] =>
      rw [hw] at v2
      simp only [List.map_cons, List.map_nil, List.cons.injEq] at v2
      have hx := not_early_of x v2.1
      have hy := early_of y v2.2.1
      have e : copies exFrag [x, y] = [(.binary, false, [0x82, 1]), (.binary, false, [0x82, 1]), (.continuation, true, [0x82, 1])] := by
        simp only [copies, exFrag, List.zip_cons_cons, List.zip_nil_left, List.flatMap_cons, List.flatMap_nil, hx, hy, if_true, if_false]
        decide
      rw [e]
      decide

/-- A text message of one character in two frames, cut within the character, and then the same in one frame. -/
def exText : List Out1 :=
  [{ type := .text, fin := false, hdr := List.replicate 14 0, mem := fun a => if a = 0 then 0xC3 else 0xA9, saved := fun _ => 0, chain := [(0, 1)] },
   { type := .continuation, fin := true, hdr := List.replicate 14 0, mem := fun a => if a = 0 then 0xC3 else 0xA9, saved := fun _ => 0, chain := [(1, 1)] },
   { type := .text, fin := true, hdr := List.replicate 14 0, mem := fun a => if a = 0 then 0xC3 else 0xA9, saved := fun _ => 0, chain := [(0, 2)] }]

/-- The server writes the three frames; the first `sendmsg` of the last one accepts all but the last byte. -/
def exTextRun : List Ev :=
  [.app true .enter, .app true (.user (.read (.atLeast 1)) fine), .app true (.loop fine), .app true .leave,
   .app false .enter, .app false (.write [⟨7, [0x01, 1]⟩, ⟨8, [0xC3]⟩]), .app false (.send (.sent 100)), .app false (.write [⟨7, [0x80, 1]⟩, ⟨8, [0xA9]⟩]), .app false (.send (.sent 100)),
   .app false (.write [⟨7, [0x81, 2]⟩, ⟨8, [0xC3, 0xA9]⟩]), .app false (.send (.sent 3)), .app false (.send (.sent 100)), .carry false 100, .app true (.readable (.bytes 100)),
   .app true (.loop fine), .app true (.loop fine), .app true (.loop fine), .app true (.loop fine), .app true (.user (.read (.atLeast 1)) fine),
   .app true (.loop fine), .app true (.loop fine), .app true (.loop fine), .app true (.loop fine), .app true (.user (.read (.atLeast 1)) fine),
   .app true (.loop fine), .app true (.loop fine), .app true (.loop fine), .app true (.loop fine), .app true (.user (.read (.atLeast 1)) fine),
   .app true (.loop fine), .app true (.loop fine), .app true (.loop fine), .app true (.loop fine), .app true (.user (.read (.atLeast 1)) fine), .app true (.loop fine)]

set_option maxRecDepth 40000 in
theorem text_view : (runOk true exE exC (initial exC exMem) exTextRun).map eachView =
    some ⟨[[0x01, 1, 0xC3], [0x80, 1, 0xA9], [0x81, 2, 0xC3, 0xA9]], [true, true, false], [[SUCCESS], [SUCCESS], [SUCCESS]], [], [], true, false,
      dataSeen false false [0xC3] ++ dataSeen false true [0xA9] ++ dataSeen false true [0xC3, 0xA9] ++ dataSeen false true [0xC3, 0xA9]⟩ := by decide +kernel

example : Sequence none (exText.map Out1.frame) ∧ wire .little true (Random.srandom 1 2) exText = some [0x01, 1, 0xC3, 0x80, 1, 0xA9, 0x81, 2, 0xC3, 0xA9] := by
  refine ⟨?_, by decide +kernel⟩; simp [exText, Out1.frame, Sequence]

/-- The hypotheses of `text_fragments_exact` are met: the client sees the text in two frames once, although it is cut within a character, and the other text twice. -/
theorem text_seen_twice : ∃ n, Reach true exE exC exMem n ∧ (exE !false).server = !true ∧ (n.sys false).writes.map Write.asked = [[0x01, 1, 0xC3], [0x80, 1, 0xA9], [0x81, 2, 0xC3, 0xA9]] ∧
    (∀ x ∈ (n.sys false).writes, Succeeded x) ∧ n.flying false = [] ∧ (n.sys !false).sock.incoming = [] ∧ (n.sys !false).br.waiting = true ∧ (n.sys !false).br.closed = false ∧
    deliveredStrict none (copies exText (n.sys false).writes) = dataSeen false false [0xC3] ++ dataSeen false true [0xA9] ++ dataSeen false true [0xC3, 0xA9] ++ dataSeen false true [0xC3, 0xA9] ∧
    seen (shown (exE !false) (n.sys !false).br) = deliveredStrict none (copies exText (n.sys false).writes) := by
  cases hr : runOk true exE exC (initial exC exMem) exTextRun with
  | none => have := text_view; rw [hr] at this; cases this
  | some n =>
    have hv := text_view
    rw [hr, Option.map_some, Option.some.injEq] at hv
    unfold eachView at hv
    simp only [EachView.mk.injEq] at hv
    obtain ⟨v1, v2, v3, v4, v5, v6, v7, hs⟩ := hv
    have hall : ∀ x ∈ (n.sys false).writes, Succeeded x := by
      intro x hx
      have hm : x.world.calls.map (·.1) ∈ [[SUCCESS], [SUCCESS], [SUCCESS]] := by rw [← v3]; exact List.mem_map.2 ⟨x, hx, rfl⟩
      have hm : x.world.calls.map (·.1) = [SUCCESS] := by simpa using hm
      obtain ⟨⟨a, ch⟩, ha, hb⟩ := List.mem_map.1 (show SUCCESS ∈ x.world.calls.map (·.1) by rw [hm]; exact List.mem_singleton.2 rfl)
      dsimp only at hb
      subst hb
      exact ⟨ch, ha⟩
    have hd : deliveredStrict none (copies exText (n.sys false).writes) =
        dataSeen false false [0xC3] ++ dataSeen false true [0xA9] ++ dataSeen false true [0xC3, 0xA9] ++ dataSeen false true [0xC3, 0xA9] := by
      match hw : (n.sys false).writes with
      | [] => rw [hw] at v2; cases v2
      | [_] => rw [hw] at v2; simp at v2
      | [_, _] => rw [hw] at v2; simp at v2
      | _ :: _ :: _ :: _ :: _ => rw [hw] at v2; simp at v2
      | [x, y, z] =>
        rw [hw] at v2
        simp only [List.map_cons, List.map_nil, List.cons.injEq] at v2
        have hx := early_of x v2.1
        have hy := early_of y v2.2.1
        have hz := not_early_of z v2.2.2.1
        have e : copies exText [x, y, z] = [(.text, false, [0xC3]), (.continuation, true, [0xA9]), (.text, true, [0xC3, 0xA9]), (.text, true, [0xC3, 0xA9])] := by
          simp only [copies, exText, List.zip_cons_cons, List.zip_nil_left, List.flatMap_cons, List.flatMap_nil, hx, hy, hz, if_true, if_false]
          decide
        rw [e]
        decide
    exact ⟨n, runOk_reach _ .init hr, rfl, v1, hall, v4, v5, v6, v7, hd, hs.trans hd.symm⟩

end Cio.WsTcp
