import Verif.WsRoundTrip.Spec
/-
C45, proofs.
-/
namespace Cio.WsRoundTrip
open WsSend WsRecv
open Masking (Mem Mask Separate chainBytes xorFrom)

/-- The code of the open message, as `WsRecv` counts. -/
def fragOf : Option FrameType → Nat
  | none => 0
  | some t => rfcOpcode t

theorem chainBytes_length (mem : Mem) (chain : List (Nat × Nat)) : (chainBytes mem chain).length = Masking.totalSize chain := by
  induction chain with
  | nil => rfl
  | cons p chain ih =>
    simp only [chainBytes, List.flatMap_cons, List.length_append, Masking.totalSize, List.map_cons, List.sum_cons]
    rw [show List.flatMap (fun p => Masking.bytesAt mem p.1 p.2) chain = chainBytes mem chain from rfl, ih]
    simp [Masking.bytesAt, Masking.totalSize]

/-- A server's further chunks are sent as they are. -/
theorem wireMore_server (saved : Mask) (ms : List (Mem × List (Nat × Nat))) :
    wireMore true saved ms = some (ms.flatMap fun m => chainBytes m.1 m.2) := by
  induction ms with
  | nil => rfl
  | cons m ms ih => simp [wireMore, ih]

theorem xorFrom_add4 (m : Mask) (a b : Nat) (h : a % 4 = b % 4) (bs : List UInt8) : xorFrom m a bs = xorFrom m b bs := by
  induction bs generalizing a b with
  | nil => rfl
  | cons x bs ih =>
    simp only [xorFrom]
    rw [ih (a + 1) (b + 1) (by omega), Masking.key, Masking.key]
    simp only [h]

/-- A client's further chunks are masked as the payload behind the first `n` bytes. -/
theorem wireMore_client (mask saved : Mask) (n : Nat) (ms : List (Mem × List (Nat × Nat))) (hs : ∀ m ∈ ms, Separate m.2)
    (h4 : ∀ m ∈ ms.dropLast, (chainBytes m.1 m.2).length % 4 = 0)
    (hm : (∀ bs, xorFrom saved 0 bs = xorFrom mask n bs) ∨ (ms.flatMap fun m => chainBytes m.1 m.2) = []) :
    wireMore false saved ms = some (xorFrom mask n (ms.flatMap fun m => chainBytes m.1 m.2)) := by
  induction ms generalizing saved n with
  | nil => rfl
  | cons m ms ih =>
    obtain ⟨mem, chain⟩ := m
    obtain ⟨mem', mask', h1, h2, h3, -⟩ := Masking.mask_write_buffer_correct mem saved chain (hs _ List.mem_cons_self)
    have hc : Masking.sendContinuationMask mem saved chain = some (mem', Masking.correctMask mask' (Masking.totalSize chain)) := by
      simp [Masking.sendContinuationMask, h1]
    simp only [wireMore, Bool.false_eq_true, if_false, hc, Option.bind_eq_bind, Option.bind_some, List.flatMap_cons]
    have hlen := chainBytes_length mem chain
    have ih' := ih (Masking.correctMask mask' (Masking.totalSize chain)) (n + Masking.totalSize chain) (fun m hm => hs m (List.mem_cons_of_mem _ hm))
      (fun m hm => h4 m (by
        cases ms with
        | nil => cases hm
        | cons m' ms' => rw [List.dropLast_cons_cons]; exact List.mem_cons_of_mem _ hm)) ?_
    · rw [ih']
      simp only [Option.bind_some, pure, Option.some.injEq]
      rw [Masking.xorFrom_append, hlen, h2]
      rcases hm with hm | hm
      · rw [hm]
      · have : chainBytes mem chain = [] := by
          rw [List.flatMap_cons] at hm
          exact (List.append_eq_nil_iff.mp hm).1
        rw [this]; rfl
    · rcases hm with hm | hm
      · cases ms with
        | nil => exact .inr rfl
        | cons m' ms' =>
          left
          intro bs
          have e4 := h4 (mem, chain) (by rw [List.dropLast_cons_cons]; exact List.mem_cons_self)
          rw [hlen] at e4
          rw [Masking.correct_mask_correct, xorFrom_add4 mask' _ 0 (by omega), h3, xorFrom_add4 saved _ 0 (by omega), hm]
          exact xorFrom_add4 mask _ _ (by omega) bs
      · right
        rw [List.flatMap_cons] at hm
        exact (List.append_eq_nil_iff.mp hm).2

/-- The mask kept for further chunks. -/
theorem sendFrame_saved (o : Endian.Order) (type : FrameType) (last : Bool) (n : Nat) (hdr : List UInt8) (hh : hdr.length = 14)
    (mem : Mem) (saved : Mask) (rng : Random.Rng) (chain : List (Nat × Nat)) (hs : Separate chain) (r : Sent)
    (hr : sendFrame o false type last n hdr mem saved rng chain = some r) (hn : Masking.totalSize chain < n) :
    ∀ bs, xorFrom r.saved 0 bs = xorFrom (toMask (Random.getBytes 4 rng).1) (Masking.totalSize chain) bs := by
  have e := sendFrame_eq o false type last n hdr hh mem saved rng chain
  obtain ⟨mem', mask', h1, h2, h3, h4⟩ := Masking.mask_write_buffer_correct mem (toMask (Random.getBytes 4 rng).1) chain hs
  have hsv : Masking.sendFirstMask mem (toMask (Random.getBytes 4 rng).1) saved n chain = some (mem', mask') := by
    simp [Masking.sendFirstMask, h1, hn]
  simp only [Bool.false_eq_true, if_false, hsv, Option.map_some, hr, Option.some.injEq] at e
  rw [e]
  exact h3

/-- One frame on the wire is a frame as the receiver expects it. -/
theorem sendFrame_frame (o : Endian.Order) (fromServer : Bool) (rng : Random.Rng) (c : Out1) (h : c.Ok fromServer) :
    ∃ r more, sendFrame o fromServer c.type c.fin c.payload.length c.hdr c.mem c.saved rng c.chain = some r ∧
      wireMore fromServer r.saved c.more = some more ∧
      ∃ f : Frame, f.wire = r.header ++ chainBytes r.mem c.chain ++ more ∧ f.Encoded (!fromServer) ∧ f.fin = c.fin ∧ f.opcode = rfcOpcode c.type ∧
        f.payload = c.payload := by
  obtain ⟨h1, h2, hmo, h3, h4⟩ := h
  cases fromServer with
  | true =>
    obtain ⟨r, e, ha, hm, hr⟩ := send_frame_server o c.type c.fin c.payload.length h3 c.hdr h1 c.mem c.saved rng c.chain
    refine ⟨r, _, e, wireMore_server _ _, ⟨r.header, c.fin, rfcOpcode c.type, none, c.payload⟩, ?_, ⟨ha, rfl⟩, rfl, rfl, rfl⟩
    rw [hm, List.append_assoc]; rfl
  | false =>
    obtain ⟨r, key, e, hk, ha, hx, hc⟩ := send_frame_client o c.type c.fin c.payload.length h3 c.hdr h1 c.mem c.saved rng c.chain h2
    have hk' : key = (Random.getBytes 4 rng).1 := by rw [← hk]
    have hlen := chainBytes_length c.mem c.chain
    have hw := wireMore_client (toMask key) r.saved (Masking.totalSize c.chain) c.more hmo (h4 rfl) (by
      by_cases hn : Masking.totalSize c.chain < c.payload.length
      · left
        rw [hk']
        exact sendFrame_saved o c.type c.fin c.payload.length c.hdr h1 c.mem c.saved rng c.chain h2 r e hn
      · right
        apply List.eq_nil_of_length_eq_zero
        have : c.payload.length = (chainBytes c.mem c.chain).length + (c.more.flatMap fun m => chainBytes m.1 m.2).length := by
          rw [Out1.payload, List.length_append]
        omega)
    refine ⟨r, _, e, hw, ⟨r.header, c.fin, rfcOpcode c.type, some key, c.payload⟩, ?_, ⟨ha, rfl⟩, rfl, rfl, rfl⟩
    show r.header ++ xorFrom (toMask key) 0 c.payload = _
    rw [Out1.payload, Masking.xorFrom_append, ← hx, Masking.xorFrom_involutive, hx, hlen, List.append_assoc, Nat.zero_add]

theorem wire_frames (o : Endian.Order) (fromServer : Bool) (rng : Random.Rng) (cs : List Out1) (h : ∀ c ∈ cs, c.Ok fromServer) (op : Option FrameType)
    (hop : op = none ∨ op = some .text ∨ op = some .binary) (hseq : Sequence op (cs.map Out1.frame)) :
    ∃ bytes fs, wire o fromServer rng cs = some bytes ∧ bytes = fs.flatMap Frame.wire ∧ Legal (!fromServer) (fragOf op) fs ∧
      shownAll (fragOf op) fs = delivered op (cs.map Out1.frame) ∧ (NoTextSent op (cs.map Out1.frame) → NoTextFrames (fragOf op) fs) := by
  induction cs generalizing rng op with
  | nil => exact ⟨[], [], rfl, rfl, trivial, rfl, fun _ => trivial⟩
  | cons c cs ih =>
    obtain ⟨r, more, e, em, f, hw, he, hfin, hop', hpay⟩ := sendFrame_frame o fromServer rng c (h c List.mem_cons_self)
    have ih := ih r.rng (fun c hc => h c (List.mem_cons_of_mem _ hc))
    obtain ⟨t, fin, hdr, mem, saved, chain, mo⟩ := c
    have key : ∀ op', (op' = none ∨ op' = some .text ∨ op' = some .binary) → Sequence op' (cs.map Out1.frame) → f.Allowed (fragOf op) → f.after (fragOf op) = fragOf op' →
        ∃ bytes fs, wire o fromServer rng (⟨t, fin, hdr, mem, saved, chain, mo⟩ :: cs) = some bytes ∧ bytes = (f :: fs).flatMap Frame.wire ∧
          Legal (!fromServer) (fragOf op) (f :: fs) ∧ shownAll (fragOf op) (f :: fs) = f.shown (fragOf op) ++ delivered op' (cs.map Out1.frame) ∧
          (NoTextSent op' (cs.map Out1.frame) → f.opcode ≥ 8 ∨ f.kind (fragOf op) = 2 → NoTextFrames (fragOf op) (f :: fs)) := by
      intro op' h1 h2 h3 h4
      obtain ⟨bytes, fs, w1, w2, w3, w4, w5⟩ := ih op' h1 h2
      refine ⟨f.wire ++ bytes, fs, ?_, ?_, ⟨he, h3, ?_⟩, ?_, ?_⟩
      · rw [hw]
        simp only [wire, e, em, w1, Option.bind_eq_bind, Option.bind_some, pure]
      · rw [w2]; rfl
      · rw [h4]; exact w3
      · rw [shownAll, h4, w4]
      · intro n1 n2
        exact ⟨n2, by rw [h4]; exact w5 n1⟩
    have hfl : f.payload.length = (Out1.payload ⟨t, fin, hdr, mem, saved, chain, mo⟩).length := by rw [hpay]
    cases t with
    | ping =>
      simp only [List.map_cons, Out1.frame, Sequence] at hseq
      obtain ⟨s1, s2, s3⟩ := hseq
      have ho : f.opcode = 9 := hop'
      obtain ⟨bytes, fs, k1, k2, k3, k4, k5⟩ := key op hop s3 (.inl ⟨.inl ho, by rw [hfin]; exact s1, by rw [hfl]; exact s2⟩) (by simp [Frame.after, ho])
      refine ⟨bytes, f :: fs, k1, k2, k3, ?_, fun n => k5 n (.inl (by omega))⟩
      rw [k4]
      simp [Frame.shown, ho, delivered, Out1.frame, hpay]
    | pong =>
      simp only [List.map_cons, Out1.frame, Sequence] at hseq
      obtain ⟨s1, s2, s3⟩ := hseq
      have ho : f.opcode = 10 := hop'
      obtain ⟨bytes, fs, k1, k2, k3, k4, k5⟩ := key op hop s3 (.inl ⟨.inr ho, by rw [hfin]; exact s1, by rw [hfl]; exact s2⟩) (by simp [Frame.after, ho])
      refine ⟨bytes, f :: fs, k1, k2, k3, ?_, fun n => k5 n (.inl (by omega))⟩
      rw [k4]
      simp [Frame.shown, ho, delivered, Out1.frame, hpay]
    | close => exact absurd hseq (by simp [Out1.frame, Sequence])
    | text =>
      simp only [List.map_cons, Out1.frame, Sequence] at hseq
      obtain ⟨s1, s3⟩ := hseq
      have ho : f.opcode = 1 := hop'
      subst s1
      obtain ⟨bytes, fs, k1, k2, k3, k4, k5⟩ := key (if fin then none else some .text) (by cases fin <;> simp) s3 (.inr (.inl ⟨.inl ho, rfl⟩))
        (by cases fin <;> simp [Frame.after, ho, hfin, Frame.kind, fragOf, rfcOpcode])
      refine ⟨bytes, f :: fs, k1, k2, k3, ?_, fun n => absurd n (by simp [NoTextSent, Out1.frame])⟩
      rw [k4]
      simp [Frame.shown, ho, delivered, Out1.frame, hpay, hfin, dataSeen, Frame.kind]
    | binary =>
      simp only [List.map_cons, Out1.frame, Sequence] at hseq
      obtain ⟨s1, s3⟩ := hseq
      have ho : f.opcode = 2 := hop'
      subst s1
      obtain ⟨bytes, fs, k1, k2, k3, k4, k5⟩ := key (if fin then none else some .binary) (by cases fin <;> simp) s3 (.inr (.inl ⟨.inr ho, rfl⟩))
        (by cases fin <;> simp [Frame.after, ho, hfin, Frame.kind, fragOf, rfcOpcode])
      refine ⟨bytes, f :: fs, k1, k2, k3, ?_, fun n => k5 ?_ (.inr (by simp [Frame.kind, ho]))⟩
      · rw [k4]
        simp [Frame.shown, ho, delivered, Out1.frame, hpay, hfin, dataSeen, Frame.kind]
      · simpa [NoTextSent, Out1.frame] using n
    | continuation =>
      simp only [List.map_cons, Out1.frame, Sequence] at hseq
      obtain ⟨s1, s3⟩ := hseq
      have ho : f.opcode = 0 := hop'
      obtain ⟨bytes, fs, k1, k2, k3, k4, k5⟩ := key (if fin then none else op) (by cases fin <;> simp [hop]) s3
        (.inr (.inr ⟨ho, by rcases hop with h | h | h <;> simp [h, fragOf, rfcOpcode] at s1 ⊢⟩))
        (by cases fin <;> simp [Frame.after, ho, hfin, Frame.kind, fragOf])
      have hk : decide (f.kind (fragOf op) = 2) = decide (op = some .binary) := by
        rcases hop with h | h | h <;> simp [h, fragOf, rfcOpcode, Frame.kind, ho]
      refine ⟨bytes, f :: fs, k1, k2, k3, ?_, fun n => ?_⟩
      · rw [k4]
        simp only [Frame.shown, hk, hpay, hfin, delivered, Out1.frame, List.map_cons, dataSeen]
        simp [ho]
      · simp only [NoTextSent, Out1.frame, List.map_cons] at n
        refine k5 n.2 (.inr ?_)
        rcases hop with h | h | h
        · exact absurd h s1
        · exact absurd h n.1
        · simp [h, fragOf, rfcOpcode, Frame.kind, ho]

/-- C45 in full for binary messages, pings and pongs: whatever frames are sent, in any legal order, by a client or by a server, with whatever masks, and
however the transport cuts the bytes, the other side delivers exactly these frames, in order, with their bytes, lengths and flags. -/
theorem binary_round_trip (o o' : Endian.Order) (fromServer sc : Bool) (u : Utf8.State) (rng : Random.Rng) (cs : List Out1) (h : ∀ c ∈ cs, c.Ok fromServer)
    (hs : Sequence none (cs.map Out1.frame)) (hb : NoTextSent none (cs.map Out1.frame)) :
    ∃ bytes, wire o fromServer rng cs = some bytes ∧
      ∀ pieces, streamOf pieces = bytes → seen (outsOf o' (!fromServer) sc u pieces) = delivered none (cs.map Out1.frame) := by
  obtain ⟨bytes, fs, w1, w2, w3, w4, w5⟩ := wire_frames o fromServer rng cs h none (.inl rfl) hs
  refine ⟨bytes, w1, fun pieces hp => ?_⟩
  rw [← w4]
  exact binary_frames_delivered o' (!fromServer) sc u fs w3 (w5 hb) pieces (hp.trans w2)

/-- What has been received of text when these frames have been delivered in part: the text messages completed, and the one in progress. -/
structure TextFine (server : Bool) (oc : List UInt8 → List Seen) (sent : List Seen) (pieces : List (Nat × List UInt8)) : Prop where
  /-- the text messages sent are well-formed -/
  complete : ∀ m ∈ texts [] sent, Utf8.WellFormed m
  /-- so is the unfinished one at the end, as far as it goes -/
  pending : ∃ suffix, Utf8.WellFormed (pend [] sent ++ suffix)
  /-- no piece ends inside a character of a final text frame -/
  uncut : ∀ k b n, (receive server oc 0 (streamOf (pieces.take k))).getLast? = some (.byte b n true false) →
    Utf8.WellFormed (pend [] (receive server oc 0 (streamOf (pieces.take k))))

/-- C45 with text.  Partial: no piece may end inside a character of a final text frame (the receiver then closes the connection: `segmentation_matters`). -/
theorem round_trip_partial (o o' : Endian.Order) (fromServer sc : Bool) (u : Utf8.State) (rng : Random.Rng) (cs : List Out1) (h : ∀ c ∈ cs, c.Ok fromServer)
    (hs : Sequence none (cs.map Out1.frame)) :
    ∃ bytes, wire o fromServer rng cs = some bytes ∧
      ∀ pieces, streamOf pieces = bytes → TextFine (!fromServer) (onClose o' sc) (delivered none (cs.map Out1.frame)) pieces →
        seen (outsOf o' (!fromServer) sc u pieces) = delivered none (cs.map Out1.frame) := by
  obtain ⟨bytes, fs, w1, w2, w3, w4, w5⟩ := wire_frames o fromServer rng cs h none (.inl rfl) hs
  refine ⟨bytes, w1, fun pieces hp ht => ?_⟩
  rw [← w4]
  have e := receive_frames (onClose o' sc) (!fromServer) 0 fs [] w3
  rw [receive_nil, List.append_nil, List.append_nil] at e
  have e2 : receive (!fromServer) (onClose o' sc) 0 (streamOf pieces) = delivered none (cs.map Out1.frame) := by
    rw [hp, w2, e, ← w4]; rfl
  exact frames_delivered_partial o' (!fromServer) sc u fs w3 pieces (hp.trans w2)
    ⟨by rw [e2]; exact ht.complete, by rw [e2]; exact ht.pending, ht.uncut⟩

/-- Non-vacuity: a client sends a binary message in two frames, the first one in three chunks, with a ping in between. -/
def exMem : Mem := fun x => UInt8.ofNat x
def exCalls : List Out1 :=
  [{ type := .binary, fin := false, hdr := List.replicate 14 0, mem := exMem, saved := toMask [], chain := [(10, 3), (20, 2)], more := [(exMem, [(40, 4)]), (exMem, [(50, 1)])] },
   { type := .ping, fin := true, hdr := List.replicate 14 0, mem := exMem, saved := toMask [], chain := [(7, 1)] },
   { type := .continuation, fin := true, hdr := List.replicate 14 0, mem := exMem, saved := toMask [], chain := [(30, 1)] }]
example : Sequence none (exCalls.map Out1.frame) ∧ NoTextSent none (exCalls.map Out1.frame) := by
  refine ⟨?_, ?_⟩ <;> simp [exCalls, Out1.frame, Sequence, NoTextSent, Out1.payload, chainBytes, Masking.bytesAt]
example : ∀ c ∈ exCalls, c.Ok false := by
  intro c hc
  simp only [exCalls, List.mem_cons, List.not_mem_nil, or_false] at hc
  rcases hc with rfl | rfl | rfl
  · refine ⟨rfl, ?_, ?_, ?_, ?_⟩
    · simp only [Separate, List.pairwise_cons]
      refine ⟨?_, ?_, List.Pairwise.nil⟩ <;> intro q hq <;> simp at hq
      subst hq; intro x; simp; omega
    · simp [Separate]
    · simp [Out1.payload, chainBytes, Masking.bytesAt]
    · simp [chainBytes, Masking.bytesAt]
  · refine ⟨rfl, by simp [Separate], by simp, by simp [Out1.payload, chainBytes, Masking.bytesAt], by simp⟩
  · refine ⟨rfl, by simp [Separate], by simp, by simp [Out1.payload, chainBytes, Masking.bytesAt], by simp⟩
example : delivered none (exCalls.map Out1.frame) =
    [.byte 10 10 false true, .byte 11 10 false true, .byte 12 10 false true, .byte 20 10 false true, .byte 21 10 false true,
     .byte 40 10 false true, .byte 41 10 false true, .byte 42 10 false true, .byte 43 10 false true, .byte 50 10 false true, .frameEnd 10 false true,
     .other (.control 9 [7]), .other (.pong [7]), .byte 30 1 true true, .frameEnd 1 true true] := by decide +kernel

end Cio.WsRoundTrip
