import Verif.WsRecv.Props
/-
C18, C19, C21 in terms of frames.  A frame is described by what RFC 6455 says about it; its header is any byte string that decodes to that.
-/
namespace Cio.WsRecv
open Rfc6455 Masking WsSend

/-- A frame as the peer sends it: `payload` is the application data before masking. -/
structure Frame where
  header : List UInt8
  fin : Bool
  opcode : Nat
  mask : Option (List UInt8)
  payload : List UInt8

/-- The bytes on the wire (masking and unmasking are the same operation). -/
def Frame.wire (f : Frame) : List UInt8 := f.header ++ unmask f.mask f.payload

/-- The header says what the frame is, in the minimal encoding; clients mask, servers do not. -/
def Frame.Encoded (server : Bool) (f : Frame) : Prop :=
  Announces f.header f.fin f.opcode f.mask f.payload.length ∧ f.mask.isSome = server

/-- The kind of data in a data frame, `frag` being the kind of the fragmented message in progress, 0 if there is none. -/
def Frame.kind (frag : Nat) (f : Frame) : Nat := if f.opcode = 0 then frag else f.opcode

/-- Frames allowed by RFC 6455, section 5.4 and 5.5 (close frames are looked at separately). -/
def Frame.Allowed (frag : Nat) (f : Frame) : Prop :=
  ((f.opcode = 9 ∨ f.opcode = 10) ∧ f.fin = true ∧ f.payload.length ≤ 125) ∨
  ((f.opcode = 1 ∨ f.opcode = 2) ∧ frag = 0) ∨ (f.opcode = 0 ∧ (frag = 1 ∨ frag = 2))

/-- The fragmented message in progress after the frame. -/
def Frame.after (frag : Nat) (f : Frame) : Nat := if f.opcode ≥ 8 then frag else if f.fin then 0 else f.kind frag

/-- A well-formed sequence of frames. -/
def Legal (server : Bool) : Nat → List Frame → Prop
  | _, [] => True
  | frag, f :: fs => f.Encoded server ∧ f.Allowed frag ∧ Legal server (f.after frag) fs

/-- What is to be seen of a frame: the payload of a data frame with its flags, a ping reported and answered, a pong reported. -/
def Frame.shown (frag : Nat) (f : Frame) : List Seen :=
  if f.opcode = 9 then [.other (.control 9 f.payload), .other (.pong f.payload)]
  else if f.opcode = 10 then [.other (.control 10 f.payload)]
  else f.payload.map (fun b => .byte b f.payload.length f.fin (decide (f.kind frag = 2))) ++
    [.frameEnd f.payload.length f.fin (decide (f.kind frag = 2))]

/-- What is to be seen of a sequence of frames, and the fragmented message in progress after it. -/
def shownAll : Nat → List Frame → List Seen
  | _, [] => []
  | frag, f :: fs => f.shown frag ++ shownAll (f.after frag) fs
def afterAll : Nat → List Frame → Nat
  | frag, [] => frag
  | frag, f :: fs => afterAll (f.after frag) fs

theorem unmask_length (m : Option (List UInt8)) (d : List UInt8) : (unmask m d).length = d.length := by
  cases m with
  | none => rfl
  | some k => exact xorFrom_length _ _ _
theorem unmask_unmask (m : Option (List UInt8)) (d : List UInt8) : unmask m (unmask m d) = d := by
  cases m with
  | none => rfl
  | some k => exact xorFrom_involutive _ _ _

theorem header_fields {header : List UInt8} {fin : Bool} {opcode : Nat} {mask : Option (List UInt8)} {len : Nat}
    (h : Announces header fin opcode mask len) :
    ∃ b0 b1 r, header = b0 :: b1 :: r ∧ fin = decide (b0.toNat ≥ 128) ∧ b0.toNat / 16 % 8 = 0 ∧ opcode = b0.toNat % 16 ∧
      mask.isSome = decide (b1.toNat ≥ 128) ∧ (len ≤ 125 → b1.toNat % 128 ≤ 125) := by
  obtain ⟨h1, h2, -⟩ := h
  have h0 := h1 []
  rw [List.append_nil] at h0
  match header, h0, h2 with
  | b0 :: b1 :: r, h0, h2 =>
    refine ⟨b0, b1, r, rfl, ?_⟩
    simp only [parseHeader] at h0
    generalize (if b1.toNat % 128 = 126 then 2 else if b1.toNat % 128 = 127 then 8 else 0) = ext at h0
    by_cases hl : r.length < ext + (if decide (b1.toNat ≥ 128) = true then 4 else 0)
    · rw [if_pos hl] at h0; cases h0
    · rw [if_neg hl] at h0
      simp only [Option.some.injEq, Prod.mk.injEq, Header.mk.injEq] at h0
      obtain ⟨⟨a, b, c, d, e⟩, -⟩ := h0
      refine ⟨a.symm, b, c.symm, ?_, ?_⟩
      · rw [← d]
        by_cases hm : b1.toNat ≥ 128 <;> simp [hm]
      · intro hle
        unfold MinimalLength at h2
        simp only at h2
        have h127 : b1.toNat % 128 < 128 := Nat.mod_lt _ (by omega)
        omega

section
variable (oc : List UInt8 → List Seen)

theorem receive_header (server : Bool) (frag : Nat) (header rest : List UInt8) (fin : Bool) (opcode : Nat) (mask : Option (List UInt8)) (len : Nat)
    (ha : Announces header fin opcode mask len) (hm : mask.isSome = server)
    (h1 : ∀ b0 : UInt8, fin = decide (b0.toNat ≥ 128) → opcode = b0.toNat % 16 → b0.toNat / 16 % 8 = 0 → badFirst frag b0 = false)
    (h2 : opcode ≥ 8 → len ≤ 125) :
    receive server oc frag (header ++ rest) = goOn oc server (body oc frag ⟨fin, 0, opcode, mask, len⟩ rest) := by
  obtain ⟨b0, b1, r, rfl, e1, e2, e3, e4, e5⟩ := header_fields ha
  have hp := ha.1 rest
  rw [receive_eq]
  simp only [List.cons_append] at hp ⊢
  have hb1 := h1 b0 e1 e3 e2
  have hb2 : badSecond server (b0.toNat % 16) b1 = false := by
    unfold badSecond
    rw [← e4, hm, ← e3]
    simp
    omega
  simp only [frame, hb1, hb2, Bool.false_eq_true, if_false]
  rw [hp]
  rfl

/-- A well-formed frame at the head of the stream is read as itself. -/
theorem receive_frame (server : Bool) (frag : Nat) (f : Frame) (tail : List UInt8) (he : f.Encoded server) (ha : f.Allowed frag) :
    receive server oc frag (f.wire ++ tail) = f.shown frag ++ receive server oc (f.after frag) tail := by
  unfold Frame.wire
  rw [List.append_assoc]
  rw [receive_header oc server frag f.header _ f.fin f.opcode f.mask f.payload.length he.1 he.2]
  · have ht : (unmask f.mask f.payload ++ tail).take f.payload.length = unmask f.mask f.payload := by
      rw [← unmask_length f.mask f.payload, List.take_left]
    have hd : (unmask f.mask f.payload ++ tail).drop f.payload.length = tail := by
      rw [← unmask_length f.mask f.payload, List.drop_left]
    have hc : decide (f.payload.length ≤ (unmask f.mask f.payload ++ tail).length) = true := by
      rw [List.length_append, unmask_length]; simp
    unfold body
    simp only [ht, hd, hc, unmask_unmask, Bool.true_eq_false, if_false]
    unfold Frame.shown Frame.after Frame.kind
    rcases ha with ⟨h | h, hf, -⟩ | ⟨h | h, hf⟩ | ⟨h, hf | hf⟩ <;> simp [h, hf, goOn]
  · intro b0 e1 e3 e2
    unfold badFirst
    rw [← e1, ← e3, e2]
    rcases ha with ⟨h | h, hf, -⟩ | ⟨h | h, hf⟩ | ⟨h, hf | hf⟩ <;> simp [h, hf]
  · intro h8
    rcases ha with ⟨h | h, -, hl⟩ | ⟨h | h, hf⟩ | ⟨h, hf | hf⟩ <;> omega

theorem receive_frames (server : Bool) (frag : Nat) (fs : List Frame) (tail : List UInt8) (hl : Legal server frag fs) :
    receive server oc frag (fs.flatMap Frame.wire ++ tail) = shownAll frag fs ++ receive server oc (afterAll frag fs) tail := by
  induction fs generalizing frag with
  | nil => rfl
  | cons f fs ih =>
    obtain ⟨h1, h2, h3⟩ := hl
    rw [List.flatMap_cons, List.append_assoc, receive_frame oc server frag f _ h1 h2, ih _ h3, shownAll, afterAll, List.append_assoc]
end

/-! C18 -/

/-- C18: a well-formed sequence of frames is delivered as exactly these frames, in order, with the right flags, pings answered, however the
transport cuts the stream.  Partial: stated for text under the condition that no piece ends inside a character. -/
theorem frames_delivered_partial (o : Endian.Order) (server sc : Bool) (u : Utf8.State) (fs : List Frame) (hl : Legal server 0 fs)
    (pieces : List (Nat × List UInt8)) (hp : streamOf pieces = fs.flatMap Frame.wire) (ht : TextOk server (onClose o sc) pieces) :
    seen (outsOf o server sc u pieces) = shownAll 0 fs := by
  rw [received_as_specified_partial o server sc u pieces ht, hp]
  have := receive_frames (onClose o sc) server 0 fs [] hl
  rw [receive_nil, List.append_nil, List.append_nil] at this
  exact this

theorem shown_noText (frag : Nat) (f : Frame) (h : f.opcode ≥ 8 ∨ f.kind frag = 2) (ha : f.Allowed frag) : NoText (f.shown frag) := by
  unfold NoText Frame.shown
  intro x hx
  split at hx
  · simp at hx; rcases hx with rfl | rfl <;> simp
  · split at hx
    · simp at hx; subst hx; simp
    · have h2 : f.kind frag = 2 := by
        rcases h with h | h
        · rcases ha with ⟨h' | h', -, -⟩ | ⟨h' | h', -⟩ | ⟨h', -⟩ <;> omega
        · exact h
      rw [h2] at hx
      simp only [List.mem_append, List.mem_map, List.mem_singleton] at hx
      rcases hx with ⟨b, -, rfl⟩ | rfl <;> simp

/-- No frame of the sequence belongs to a text message. -/
def NoTextFrames : Nat → List Frame → Prop
  | _, [] => True
  | frag, f :: fs => (f.opcode ≥ 8 ∨ f.kind frag = 2) ∧ NoTextFrames (f.after frag) fs

theorem shownAll_noText (server : Bool) (frag : Nat) (fs : List Frame) (hl : Legal server frag fs) (h : NoTextFrames frag fs) :
    NoText (shownAll frag fs) := by
  induction fs generalizing frag with
  | nil => intro x hx; cases hx
  | cons f fs ih =>
    intro x hx
    rw [shownAll, List.mem_append] at hx
    rcases hx with hx | hx
    · exact shown_noText frag f h.1 hl.2.1 x hx
    · exact ih _ hl.2.2 h.2 x hx

/-- C18 in full for binary messages, pings and pongs: any frames, any fragmentation, any cuts. -/
theorem binary_frames_delivered (o : Endian.Order) (server sc : Bool) (u : Utf8.State) (fs : List Frame) (hl : Legal server 0 fs)
    (hb : NoTextFrames 0 fs) (pieces : List (Nat × List UInt8)) (hp : streamOf pieces = fs.flatMap Frame.wire) :
    seen (outsOf o server sc u pieces) = shownAll 0 fs := by
  have e := receive_frames (onClose o sc) server 0 fs [] hl
  rw [receive_nil, List.append_nil, List.append_nil] at e
  rw [binary_received_as_specified o server sc u pieces ?_, hp, e]
  rw [hp, e]
  exact shownAll_noText server 0 fs hl hb

/-! C19 -/

/-- The first two bytes of a frame that RFC 6455 does not allow, not regarding reserved opcodes. -/
def Malformed (server : Bool) (frag : Nat) (b0 b1 : UInt8) : Prop :=
  b0.toNat / 16 % 8 ≠ 0 ∨                                            -- a reserved bit
  (b0.toNat % 16 ≥ 8 ∧ b0.toNat < 128) ∨                              -- fragmented control frame
  (b0.toNat % 16 ≥ 8 ∧ b1.toNat % 128 > 125) ∨                        -- control frame too long
  (b0.toNat % 16 = 0 ∧ frag = 0) ∨                                    -- continuation of nothing
  (0 < b0.toNat % 16 ∧ b0.toNat % 16 < 8 ∧ frag ≠ 0) ∨                -- new message within a fragmented one
  (b1.toNat ≥ 128 ↔ server = false)                                   -- a client that does not mask or a server that does

theorem receive_malformed (oc : List UInt8 → List Seen) (server : Bool) (frag : Nat) (b0 b1 : UInt8) (rest : List UInt8) (h : Malformed server frag b0 b1) :
    receive server oc frag (b0 :: b1 :: rest) = [.other (.fail 1002)] := by
  rw [receive_eq]
  simp only [frame]
  by_cases hb1 : badFirst frag b0 = true
  · rw [if_pos hb1]; rfl
  · rw [if_neg hb1]
    have hs := badFirst_spec frag b0 (by simpa using hb1)
    have hb2 : badSecond server (b0.toNat % 16) b1 = true := by
      unfold badSecond
      unfold Malformed at h
      cases server <;> by_cases hx : b1.toNat ≥ 128 <;> simp [hx] at h ⊢ <;> omega
    rw [if_pos hb2]; rfl

/-- A whole frame with a reserved opcode. -/
theorem receive_reserved (oc : List UInt8 → List Seen) (server : Bool) (frag : Nat) (f : Frame) (tail : List UInt8) (he : f.Encoded server)
    (hop : (3 ≤ f.opcode ∧ f.opcode ≤ 7) ∨ (11 ≤ f.opcode ∧ f.fin = true ∧ f.payload.length ≤ 125)) (hfrag : f.opcode ≤ 7 → frag = 0) :
    receive server oc frag (f.wire ++ tail) = [.other (.fail 1002)] := by
  unfold Frame.wire
  rw [List.append_assoc]
  rw [receive_header oc server frag f.header _ f.fin f.opcode f.mask f.payload.length he.1 he.2]
  · unfold body
    have hc : decide (f.payload.length ≤ (unmask f.mask f.payload ++ tail).length) = true := by
      rw [List.length_append, unmask_length]; simp
    simp only [hc, Bool.true_eq_false, if_false]
    rcases hop with h | h
    · rw [if_neg (by omega), if_neg (by split <;> omega), if_pos]
      · rfl
      · by_cases h0 : f.payload.length = 0
        · exact .inl h0
        · right
          intro hn
          have : (unmask f.mask f.payload ++ tail).length = 0 := by rw [hn]; rfl
          rw [List.length_append, unmask_length] at this
          omega
    · rw [if_pos (by omega), if_neg (by omega), if_neg (by omega), if_neg (by omega)]
      rfl
  · intro b0 e1 e3 e2
    unfold badFirst
    rw [← e1, ← e3, e2]
    rcases hop with h | ⟨h, hf, -⟩
    · have := hfrag (by omega)
      simp [this]
      omega
    · simp [hf]
      omega
  · intro h8
    rcases hop with h | h
    · omega
    · exact h.2.2

/-- C19: after any well-formed frames a malformed header makes the connection fail with status 1002 and nothing more is delivered.
Partial: a reserved opcode is noticed only with the payload (`reserved_opcode_fails`), lengths that are not minimal are not noticed at all
(`nonminimal_length_accepted`). -/
theorem malformed_fails_partial (o : Endian.Order) (server sc : Bool) (u : Utf8.State) (fs : List Frame) (hl : Legal server 0 fs)
    (b0 b1 : UInt8) (rest : List UInt8) (hm : Malformed server (afterAll 0 fs) b0 b1)
    (pieces : List (Nat × List UInt8)) (hp : streamOf pieces = fs.flatMap Frame.wire ++ b0 :: b1 :: rest)
    (ht : NoTextFrames 0 fs ∨ TextOk server (onClose o sc) pieces) :
    seen (outsOf o server sc u pieces) = shownAll 0 fs ++ [.other (.fail 1002)] := by
  have e := receive_frames (onClose o sc) server 0 fs (b0 :: b1 :: rest) hl
  rw [receive_malformed _ _ _ _ _ _ hm, ← hp] at e
  rcases ht with ht | ht
  · rw [binary_received_as_specified o server sc u pieces ?_, e]
    rw [e]
    intro x hx
    rcases List.mem_append.mp hx with hx | hx
    · exact shownAll_noText server 0 fs hl ht x hx
    · simp at hx; subst hx; simp
  · rw [received_as_specified_partial o server sc u pieces ht, e]

/-- C19: a frame with a reserved opcode makes the connection fail with status 1002. -/
theorem reserved_opcode_fails (o : Endian.Order) (server sc : Bool) (u : Utf8.State) (fs : List Frame) (hl : Legal server 0 fs)
    (f : Frame) (he : f.Encoded server)
    (hop : (3 ≤ f.opcode ∧ f.opcode ≤ 7) ∨ (11 ≤ f.opcode ∧ f.fin = true ∧ f.payload.length ≤ 125)) (hfrag : f.opcode ≤ 7 → afterAll 0 fs = 0)
    (rest : List UInt8) (pieces : List (Nat × List UInt8)) (hp : streamOf pieces = fs.flatMap Frame.wire ++ (f.wire ++ rest))
    (ht : NoTextFrames 0 fs ∨ TextOk server (onClose o sc) pieces) :
    seen (outsOf o server sc u pieces) = shownAll 0 fs ++ [.other (.fail 1002)] := by
  have e := receive_frames (onClose o sc) server 0 fs (f.wire ++ rest) hl
  rw [receive_reserved _ _ _ f rest he hop hfrag, ← hp] at e
  rcases ht with ht | ht
  · rw [binary_received_as_specified o server sc u pieces ?_, e]
    rw [e]
    intro x hx
    rcases List.mem_append.mp hx with hx | hx
    · exact shownAll_noText server 0 fs hl ht x hx
    · simp at hx; subst hx; simp
  · rw [received_as_specified_partial o server sc u pieces ht, e]

/-! C21 -/

/-- C21: a ping that arrives after any frames, fragments included, and however the stream is cut, is reported and answered by one pong with the same
payload, before anything that follows it is looked at. -/
theorem ping_answered (o : Endian.Order) (server sc : Bool) (u : Utf8.State) (fs : List Frame) (f : Frame) (gs : List Frame)
    (hl : Legal server 0 (fs ++ f :: gs)) (hf : f.opcode = 9) (pieces : List (Nat × List UInt8))
    (hp : streamOf pieces = (fs ++ f :: gs).flatMap Frame.wire)
    (ht : NoTextFrames 0 (fs ++ f :: gs) ∨ TextOk server (onClose o sc) pieces) :
    seen (outsOf o server sc u pieces) = shownAll 0 fs ++
      [.other (.control 9 f.payload), .other (.pong f.payload)] ++ shownAll (afterAll 0 fs) gs := by
  have key : ∀ frag, shownAll frag (fs ++ f :: gs) = shownAll frag fs ++
      [.other (.control 9 f.payload), .other (.pong f.payload)] ++ shownAll (afterAll frag fs) gs := by
    clear hl hp ht
    induction fs with
    | nil =>
      intro frag
      simp [shownAll, Frame.shown, Frame.after, afterAll, hf]
    | cons g fs ih =>
      intro frag
      simp only [List.cons_append, shownAll, afterAll, ih, List.append_assoc]
  rw [← key]
  rcases ht with ht | ht
  · exact binary_frames_delivered o server sc u _ hl ht pieces hp
  · exact frames_delivered_partial o server sc u _ hl pieces hp ht

end Cio.WsRecv
