import Verif.WsSend.Model
import Verif.WsSend.Rfc6455
import Verif.Masking.Props
import Verif.Endian.Props
import Verif.Random.Props
/-
C17: outgoing frames.
-/
namespace Cio.WsSend
open Masking (Mem Mask Separate chainBytes xorFrom Covers)
open Rfc6455

theorem writeAt_eq (hdr : List UInt8) (i : Nat) (bs : List UInt8) (h : i + bs.length ≤ hdr.length) :
    writeAt hdr i bs = some (hdr.take i ++ bs ++ hdr.drop (i + bs.length)) := by simp [writeAt, h]

theorem beNat_append (a : List UInt8) (b : UInt8) : beNat (a ++ [b]) = beNat a * 256 + b.toNat := by simp [beNat]

theorem beNat_reverse_leBytes (n v : Nat) : beNat (Endian.leBytes n v).reverse = v % 256 ^ n := by
  induction n generalizing v with
  | zero => simp [Endian.leBytes, beNat, Nat.mod_one]
  | succ n ih =>
    simp only [Endian.leBytes, List.reverse_cons]
    rw [beNat_append, ih, Nat.pow_succ, Nat.mul_comm (256 ^ n) 256, Nat.mod_mul]
    simp
    omega

theorem beNat_beBytes (n v : Nat) : beNat (Endian.beBytes n v) = v % 256 ^ n := by
  rw [Endian.beBytes_eq, beNat_reverse_leBytes]

theorem beBytes_length (n v : Nat) : (Endian.beBytes n v).length = n := by
  rw [Endian.beBytes_eq]; simp [Endian.leBytes_length]

theorem getBytes_length (n : Nat) (r : Random.Rng) : (Random.getBytes n r).1.length = n := by
  rw [Random.random_get_bytes_correct]; simp

/-- Parsing a header given by its parts. -/
theorem parse_parts (b0 b1 : UInt8) (ext msk rest : List UInt8)
    (hext : ext.length = if b1.toNat % 128 = 126 then 2 else if b1.toNat % 128 = 127 then 8 else 0)
    (hmsk : msk.length = if b1.toNat ≥ 128 then 4 else 0) :
    parseHeader (b0 :: b1 :: (ext ++ msk) ++ rest) =
      some (⟨decide (b0.toNat ≥ 128), b0.toNat / 16 % 8, b0.toNat % 16, if b1.toNat ≥ 128 then some msk else none,
        if b1.toNat % 128 < 126 then b1.toNat % 128 else beNat ext⟩, rest) := by
  simp only [List.cons_append, parseHeader, decide_eq_true_eq]
  rw [← hext, ← hmsk]
  have h1 : List.take ext.length (ext ++ msk ++ rest) = ext := by rw [List.append_assoc, List.take_left]
  have h2 : List.drop ext.length (ext ++ msk ++ rest) = msk ++ rest := by rw [List.append_assoc, List.drop_left]
  have h3 : List.drop (ext.length + msk.length) (ext ++ msk ++ rest) = rest := by
    rw [← List.length_append, List.drop_left]
  rw [h1, h2, h3, if_neg (by simp)]
  by_cases hm : b1.toNat ≥ 128
  · rw [if_pos hm] at hmsk
    rw [if_pos hm, if_pos hm, ← hmsk, List.take_left]
  · rw [if_neg hm, if_neg hm]

/-- The bytes of the header, by its parts. -/
def parts (b0 b1 : UInt8) (ext msk : List UInt8) : List UInt8 := b0 :: b1 :: (ext ++ msk)

/-- The extended length field. -/
def extField (n : Nat) : List UInt8 := if n ≤ 125 then [] else if n ≤ 65535 then Endian.beBytes 2 n else Endian.beBytes 8 n

def len7 (n : Nat) : UInt8 := if n ≤ 125 then UInt8.ofNat n else if n ≤ 65535 then 126 else 127

theorem beBytes_mod (n v : Nat) : Endian.beBytes n (v % 256 ^ n) = Endian.beBytes n v := by
  rw [Endian.beBytes, Endian.beBytes]
  apply List.map_congr_left
  intro i hi
  rw [List.mem_range] at hi
  congr 1
  obtain ⟨k, hk⟩ : ∃ k, n = (n - 1 - i) + 1 + k := ⟨n - (n - 1 - i) - 1, by omega⟩
  conv => lhs; rw [hk]
  have hki : n - 1 - i = n - 1 - i := rfl
  generalize hj : n - 1 - i = j at *
  have e : (j + 1 + k - 1 - i) = j := by omega
  rw [e, Nat.pow_add, Nat.pow_succ, Nat.mul_assoc, Nat.mod_mul_right_div_self]
  rw [Nat.mod_mul_right_mod]

theorem sendFrame_eq (o : Endian.Order) (isServer : Bool) (type : FrameType) (last : Bool) (n : Nat) (hdr : List UInt8) (hh : hdr.length = 14)
    (mem : Mem) (saved : Mask) (rng : Random.Rng) (chain : List (Nat × Nat)) :
    let b0 : UInt8 := if last then UInt8.ofNat type.toNat ||| 0x80 else UInt8.ofNat type.toNat
    sendFrame o isServer type last n hdr mem saved rng chain =
      if isServer then some ⟨parts b0 (len7 n) (extField n) [], mem, saved, rng⟩
      else (Masking.sendFirstMask mem (toMask (Random.getBytes 4 rng).1) saved n chain).map fun r =>
        ⟨parts b0 (len7 n ||| 0x80) (extField n) (Random.getBytes 4 rng).1, r.1, r.2, (Random.getBytes 4 rng).2⟩ := by
  intro b0
  obtain ⟨mk, rng2, hg, hl⟩ : ∃ mk rng2, Random.getBytes 4 rng = (mk, rng2) ∧ mk.length = 4 :=
    ⟨_, _, rfl, getBytes_length 4 rng⟩
  rw [hg]
  obtain ⟨m0, m1, m2, m3, rfl⟩ : ∃ m0 m1 m2 m3, mk = [m0, m1, m2, m3] := by
    match mk, hl with
    | [a, b, c, d], _ => exact ⟨a, b, c, d, rfl⟩
  obtain ⟨h0, h1, h2, h3, h4, h5, h6, h7, h8, h9, h10, h11, h12, h13, rfl⟩ :
      ∃ h0 h1 h2 h3 h4 h5 h6 h7 h8 h9 h10 h11 h12 h13, hdr = [h0, h1, h2, h3, h4, h5, h6, h7, h8, h9, h10, h11, h12, h13] := by
    match hdr, hh with
    | [a, b, c, d, e, f, g, h, i, j, k, l, m, n], _ => exact ⟨a, b, c, d, e, f, g, h, i, j, k, l, m, n, rfl⟩
  have ed : Endian.toMem o 2 (Endian.htobe o 2 (n % 2 ^ 16)) = Endian.beBytes 2 n := by
    rw [Endian.htobe_memory, show (2 : Nat) ^ 16 = 256 ^ 2 from rfl, beBytes_mod]
  have eq : Endian.toMem o 8 (Endian.htobe o 8 (n % 2 ^ 64)) = Endian.beBytes 8 n := by
    rw [Endian.htobe_memory, show (2 : Nat) ^ 64 = 256 ^ 8 from rfl, beBytes_mod]
  unfold sendFrame
  rw [hg]
  simp only [ed, eq]
  have l2 := beBytes_length 2 n
  have l8 := beBytes_length 8 n
  obtain ⟨x0, x1, ex⟩ : ∃ x0 x1, Endian.beBytes 2 n = [x0, x1] := by
    generalize Endian.beBytes 2 n = l at l2
    match l, l2 with
    | [a, b], _ => exact ⟨a, b, rfl⟩
  obtain ⟨y0, y1, y2, y3, y4, y5, y6, y7, ey⟩ : ∃ y0 y1 y2 y3 y4 y5 y6 y7, Endian.beBytes 8 n = [y0, y1, y2, y3, y4, y5, y6, y7] := by
    generalize Endian.beBytes 8 n = l at l8
    match l, l8 with
    | [a, b, c, d, e, f, g, h], _ => exact ⟨a, b, c, d, e, f, g, h, rfl⟩
  simp only [ex, ey, extField, len7, parts]
  by_cases c1 : n ≤ 125
  · simp only [if_pos c1]
    cases isServer
    · cases hs : Masking.sendFirstMask mem (toMask [m0, m1, m2, m3]) saved n chain <;> simp [writeAt] <;> rfl
    · simp [writeAt]; rfl
  · simp only [if_neg c1]
    by_cases c2 : n ≤ 65535
    · simp only [if_pos c2]
      cases isServer
      · cases hs : Masking.sendFirstMask mem (toMask [m0, m1, m2, m3]) saved n chain <;> simp [writeAt] <;> rfl
      · simp [writeAt]; rfl
    · simp only [if_neg c2]
      cases isServer
      · cases hs : Masking.sendFirstMask mem (toMask [m0, m1, m2, m3]) saved n chain <;> simp [writeAt] <;> rfl
      · simp [writeAt]; rfl

theorem b0_facts (type : FrameType) (last : Bool) :
    let b0 : UInt8 := if last then UInt8.ofNat type.toNat ||| 0x80 else UInt8.ofNat type.toNat
    decide (b0.toNat ≥ 128) = last ∧ b0.toNat / 16 % 8 = 0 ∧ b0.toNat % 16 = type.toNat := by
  cases type <;> cases last <;> decide

theorem len7_facts (n : Nat) :
    (len7 n).toNat < 128 ∧ (n ≤ 125 → (len7 n).toNat = n) ∧ (125 < n → n ≤ 65535 → (len7 n).toNat = 126) ∧
    (65535 < n → (len7 n).toNat = 127) := by
  unfold len7
  refine ⟨?_, ?_, ?_, ?_⟩
  · split
    · simp; omega
    · split <;> decide
  · intro h; rw [if_pos h]; simp; omega
  · intro h1 h2; rw [if_neg (by omega), if_pos h2]; rfl
  · intro h; rw [if_neg (by omega), if_neg (by omega)]; rfl

theorem or80 (b : UInt8) (h : b.toNat < 128) : (b ||| 0x80).toNat = b.toNat + 128 := by
  have : ∀ b : Fin 128, (UInt8.ofNat b.val ||| 0x80).toNat = b.val + 128 := by decide +kernel
  have := this ⟨b.toNat, h⟩
  simpa using this

theorem ext_length (n : Nat) : (extField n).length =
    if (len7 n).toNat % 128 = 126 then 2 else if (len7 n).toNat % 128 = 127 then 8 else 0 := by
  obtain ⟨h0, h1, h2, h3⟩ := len7_facts n
  unfold extField
  by_cases c1 : n ≤ 125
  · rw [if_pos c1, h1 c1, if_neg (by omega), if_neg (by omega)]; rfl
  · rw [if_neg c1]
    by_cases c2 : n ≤ 65535
    · rw [if_pos c2, h2 (by omega) c2, beBytes_length]; rfl
    · rw [if_neg c2, h3 (by omega), beBytes_length]; rfl

theorem ext_value (n : Nat) (hn : n < 2 ^ 64) :
    (if (len7 n).toNat % 128 < 126 then (len7 n).toNat % 128 else beNat (extField n)) = n := by
  obtain ⟨h0, h1, h2, h3⟩ := len7_facts n
  unfold extField
  by_cases c1 : n ≤ 125
  · rw [h1 c1, if_pos (by omega)]; omega
  · rw [if_neg c1]
    by_cases c2 : n ≤ 65535
    · rw [if_pos c2, h2 (by omega) c2, if_neg (by omega), beNat_beBytes]; omega
    · rw [if_neg c2, h3 (by omega), if_neg (by omega), beNat_beBytes]; omega

/-- What the peer sees of a frame: RFC 6455 header fields, and a header encoded as RFC 6455 demands. -/
def Announces (header : List UInt8) (fin : Bool) (opcode : Nat) (mask : Option (List UInt8)) (len : Nat) : Prop :=
  (∀ rest, parseHeader (header ++ rest) = some (⟨fin, 0, opcode, mask, len⟩, rest)) ∧ MinimalLength header len ∧ header.length ≤ 14

/-- The opcodes of RFC 6455 section 11.8. -/
def rfcOpcode : FrameType → Nat
  | .continuation => 0x0
  | .text => 0x1
  | .binary => 0x2
  | .close => 0x8
  | .ping => 0x9
  | .pong => 0xA

theorem rfcOpcode_eq (t : FrameType) : t.toNat = rfcOpcode t := by cases t <;> rfl

/-- C17, server: the header announces exactly the requested frame, unmasked, and the payload is left alone. -/
theorem send_frame_server (o : Endian.Order) (type : FrameType) (last : Bool) (n : Nat) (hn : n < 2 ^ 64) (hdr : List UInt8)
    (hh : hdr.length = 14) (mem : Mem) (saved : Mask) (rng : Random.Rng) (chain : List (Nat × Nat)) :
    ∃ r, sendFrame o true type last n hdr mem saved rng chain = some r ∧ Announces r.header last (rfcOpcode type) none n ∧
      r.mem = mem ∧ r.rng = rng := by
  have e := sendFrame_eq o true type last n hdr hh mem saved rng chain
  simp only [if_true] at e
  refine ⟨_, e, ⟨?_, ?_, ?_⟩, rfl, rfl⟩
  · intro rest
    obtain ⟨f1, f2, f3⟩ := b0_facts type last
    have hl := (len7_facts n).1
    have := parse_parts (if last then UInt8.ofNat type.toNat ||| 0x80 else UInt8.ofNat type.toNat) (len7 n) (extField n) [] rest
      (ext_length n) (by rw [if_neg (by omega)]; rfl)
    rw [f1, f2, f3, rfcOpcode_eq, ext_value n hn, if_neg (show ¬ (len7 n).toNat ≥ 128 by omega)] at this
    exact this
  · obtain ⟨h0, h1, h2, h3⟩ := len7_facts n
    simp only [parts, MinimalLength]
    refine ⟨?_, ?_, ?_⟩ <;> intro h <;> by_cases c1 : n ≤ 125 <;> by_cases c2 : n ≤ 65535 <;>
      first | omega | (have := h1 c1; omega) | (have := h2 (by omega) c2; omega) | (have := h3 (by omega); omega)
  · simp only [parts, List.length_cons, List.length_append, ext_length]
    split
    · simp
    · split <;> simp

/-- C17, client: the header announces exactly the requested frame with the next four random bytes as masking key, and the payload,
unmasked by the rule of RFC 6455 section 5.3 with that key, is what the user passed. -/
theorem send_frame_client (o : Endian.Order) (type : FrameType) (last : Bool) (n : Nat) (hn : n < 2 ^ 64) (hdr : List UInt8)
    (hh : hdr.length = 14) (mem : Mem) (saved : Mask) (rng : Random.Rng) (chain : List (Nat × Nat)) (hs : Separate chain) :
    ∃ r key, sendFrame o false type last n hdr mem saved rng chain = some r ∧ (key, r.rng) = Random.getBytes 4 rng ∧
      Announces r.header last (rfcOpcode type) (some key) n ∧
      xorFrom (toMask key) 0 (chainBytes r.mem chain) = chainBytes mem chain ∧ (∀ x, ¬ Covers chain x → r.mem x = mem x) := by
  have e := sendFrame_eq o false type last n hdr hh mem saved rng chain
  obtain ⟨mem', mask', h1, h2, h3, h4⟩ := Masking.mask_write_buffer_correct mem (toMask (Random.getBytes 4 rng).1) chain hs
  obtain ⟨saved', hsv⟩ : ∃ saved', Masking.sendFirstMask mem (toMask (Random.getBytes 4 rng).1) saved n chain = some (mem', saved') := by
    simp only [Masking.sendFirstMask, h1, Option.bind_eq_bind, Option.bind_some]
    split <;> exact ⟨_, rfl⟩
  simp only [Bool.false_eq_true, if_false, hsv, Option.map_some] at e
  have hl := (len7_facts n).1
  have h80 := or80 (len7 n) hl
  refine ⟨_, (Random.getBytes 4 rng).1, e, rfl, ⟨?_, ?_, ?_⟩, ?_, h4⟩
  · intro rest
    obtain ⟨f1, f2, f3⟩ := b0_facts type last
    have hm : (len7 n ||| 0x80).toNat % 128 = (len7 n).toNat % 128 := by rw [h80]; omega
    have := parse_parts (if last then UInt8.ofNat type.toNat ||| 0x80 else UInt8.ofNat type.toNat) (len7 n ||| 0x80) (extField n)
      (Random.getBytes 4 rng).1 rest (by rw [hm]; exact ext_length n) (by rw [if_pos (by omega)]; exact getBytes_length 4 rng)
    rw [f1, f2, f3, rfcOpcode_eq, hm, ext_value n hn, if_pos (show (len7 n ||| 0x80).toNat ≥ 128 by omega)] at this
    exact this
  · obtain ⟨h0, h1, h2, h3⟩ := len7_facts n
    simp only [parts, MinimalLength, h80]
    refine ⟨?_, ?_, ?_⟩ <;> intro h <;> by_cases c1 : n ≤ 125 <;> by_cases c2 : n ≤ 65535 <;>
      first | omega | (have := h1 c1; omega) | (have := h2 (by omega) c2; omega) | (have := h3 (by omega); omega)
  · simp only [parts, List.length_cons, List.length_append, ext_length, getBytes_length]
    split
    · simp
    · split <;> simp
  · simp only
    rw [h2, Masking.xorFrom_involutive]

/-- Non-vacuity: a binary frame of 300 bytes, from a client. -/
example : Separate [(1000, 100), (2001, 200)] := by
  simp only [Separate, List.pairwise_cons, Masking.Disjoint]
  refine ⟨?_, ?_, List.Pairwise.nil⟩ <;> intro q hq <;> simp at hq
  subst hq; intro x; simp; omega
example : (sendFrame .little true .binary true 300 (List.replicate 14 0) (fun _ => 0) (toMask []) ⟨1, 1⟩ []).map (·.header) =
    some [0x82, 126, 1, 44] := by decide +kernel
example : (sendFrame .little false .text false 70000 (List.replicate 14 0) (fun _ => 0) (toMask []) ⟨1, 1⟩ []).map (·.header.length) =
    some 14 := by decide +kernel

end Cio.WsSend
