import Verif.WsRecv.Spec
import Verif.Utf8.Lemmas
import Verif.Masking.Props
import Verif.Endian.Props
import Verif.WsSend.Props
/-
Lemmas: the handlers of the receive path, chained over the unread bytes, compute the reading of the stream given in the specification.
-/
namespace Cio.WsRecv
open Rfc6455 Masking

theorem ofLe_append (bs : List UInt8) (b : UInt8) : Endian.ofLe (bs ++ [b]) = Endian.ofLe bs + 256 ^ bs.length * b.toNat := by
  induction bs with
  | nil => simp [Endian.ofLe]
  | cons x bs ih =>
    simp only [List.cons_append, Endian.ofLe, ih, List.length_cons, Nat.pow_succ]
    rw [Nat.mul_add, ← Nat.mul_assoc, Nat.mul_comm 256 (256 ^ _)]
    omega

theorem beNat_foldl (bs : List UInt8) (acc : Nat) :
    bs.foldl (fun acc b => acc * 256 + b.toNat) acc = acc * 256 ^ bs.length + Endian.ofLe bs.reverse := by
  induction bs generalizing acc with
  | nil => simp [Endian.ofLe]
  | cons x bs ih =>
    rw [List.foldl_cons, ih, List.reverse_cons, ofLe_append, List.length_cons, List.length_reverse, Nat.pow_succ, Nat.add_mul,
      Nat.mul_comm (256 ^ bs.length) x.toNat, Nat.mul_assoc acc, Nat.mul_comm 256]
    omega

theorem ofLe_reverse (bs : List UInt8) : Endian.ofLe bs.reverse = beNat bs := by
  have := beNat_foldl bs 0
  simp only [Nat.zero_mul, Nat.zero_add] at this
  exact this.symm

theorem betoh_ofMem (o : Endian.Order) (bs : List UInt8) (n : Nat) (hn : n = bs.length) : Endian.betoh o n (Endian.ofMem o bs) = beNat bs := by
  subst hn
  cases o with
  | little => simp only [Endian.betoh, Endian.ofMem, Endian.bswap, Endian.leBytes_ofLe, ofLe_reverse]
  | big => simp only [Endian.betoh, Endian.ofMem, ofLe_reverse]

theorem bytesAt_memOf (a : Nat) (data : List UInt8) : bytesAt (memOf a data) a data.length = data := by
  apply List.ext_getElem
  · simp [bytesAt]
  · intro i h1 h2
    simp [bytesAt, memOf, h2]

theorem unmaskAt_eq (a : Nat) (mask : Mask) (data : List UInt8) : unmaskAt a mask data = xorFrom mask 0 data := by
  unfold unmaskAt
  rw [websocket_mask_bytes, bytesAt_memOf]

/-! Bytes of the header -/

theorem byte_fin (b : UInt8) : (b &&& 0x80 == 0x80) = decide (b.toNat ≥ 128) :=
  Utf8.forall_byte (P := fun b => (b &&& 0x80 == 0x80) = decide (b.toNat ≥ 128)) (by decide +kernel) b
theorem byte_rsv (b : UInt8) : (b &&& 0x70 ≠ 0) ↔ b.toNat / 16 % 8 ≠ 0 :=
  Utf8.forall_byte (P := fun b => (b &&& 0x70 ≠ 0) ↔ b.toNat / 16 % 8 ≠ 0) (by decide +kernel) b
theorem byte_opcode (b : UInt8) : (b &&& 0x0f).toNat = b.toNat % 16 :=
  Utf8.forall_byte (P := fun b => (b &&& 0x0f).toNat = b.toNat % 16) (by decide +kernel) b
theorem byte_len (b : UInt8) : (b &&& 0x7f).toNat = b.toNat % 128 :=
  Utf8.forall_byte (P := fun b => (b &&& 0x7f).toNat = b.toNat % 128) (by decide +kernel) b

/-! What is to be seen from a state of the receiver on -/

section
variable (oc : List UInt8 → List Seen)

def um (rx : Rx) (data : List UInt8) : List UInt8 := if rx.isServer then xorFrom rx.mask 0 data else data

/-- Go on with the rest of the stream. -/
def goOn (srv : Bool) : List Seen × Option (Nat × List UInt8) → List Seen
  | (s, none) => s
  | (s, some (frag, rest)) => s ++ receive srv oc frag rest

def payE (rx : Rx) (rest : List UInt8) : List Seen :=
  goOn oc rx.isServer <|
  if rx.opcode ≥ 8 then
    if decide (rx.remaining ≤ rest.length) = false then ([], none)
    else if rx.opcode = 8 then (oc (um rx (rest.take rx.remaining)), none)
    else if rx.opcode = 9 then
      ([.other (.control 9 (um rx (rest.take rx.remaining))), .other (.pong (um rx (rest.take rx.remaining)))], some (rx.frag, rest.drop rx.remaining))
    else if rx.opcode = 10 then ([.other (.control 10 (um rx (rest.take rx.remaining)))], some (rx.frag, rest.drop rx.remaining))
    else ([.other (.fail 1002)], none)
  else if rx.opcode = 1 ∨ rx.opcode = 2 then
    if decide (rx.remaining ≤ rest.length) = false then
      ((um rx (rest.take rx.remaining)).map (fun b => Seen.byte b rx.frameLength rx.fin (decide (rx.opcode = 2))), none)
    else ((um rx (rest.take rx.remaining)).map (fun b => Seen.byte b rx.frameLength rx.fin (decide (rx.opcode = 2))) ++
      [.frameEnd rx.frameLength rx.fin (decide (rx.opcode = 2))], some (rx.frag, rest.drop rx.remaining))
  else if rx.remaining = 0 ∨ rest ≠ [] then ([.other (.fail 1002)], none)
  else ([], none)

def maskE (rx : Rx) (rest : List UInt8) : List Seen :=
  if rx.isServer then
    if rest.length < 4 then [] else payE oc { rx with mask := WsSend.toMask (rest.take 4) } (rest.drop 4)
  else payE oc rx rest

def lenE (n : Nat) (rx : Rx) (rest : List UInt8) : List Seen :=
  if rest.length < n then []
  else maskE oc { rx with remaining := beNat (rest.take n), frameLength := beNat (rest.take n) } (rest.drop n)

def firstE (rx : Rx) : List UInt8 → List Seen
  | [] => []
  | b1 :: rest =>
    if badSecond rx.isServer rx.opcode b1 then [.other (.fail 1002)]
    else if b1.toNat % 128 < 126 then
      maskE oc { rx with remaining := b1.toNat % 128, frameLength := b1.toNat % 128 } rest
    else lenE oc (if b1.toNat % 128 = 126 then 2 else 8) rx rest

def expect (rx : Rx) (rest : List UInt8) : List Seen :=
  match rx.cont with
  | .header => receive rx.isServer oc rx.frag rest
  | .firstLen => firstE oc rx rest
  | .len16 => lenE oc 2 rx rest
  | .len64 => lenE oc 8 rx rest
  | .mask => if rest.length < 4 then [] else payE oc { rx with mask := WsSend.toMask (rest.take 4) } (rest.drop 4)
  | .payload => payE oc rx rest
  | .stopped => []

/-- The effective opcode and the new value of `frag`. -/
def kindOf (frag : Nat) (b0 : UInt8) : Nat := if b0.toNat % 16 = 0 then frag else b0.toNat % 16
def fragOf (frag : Nat) (b0 : UInt8) : Nat :=
  if b0.toNat % 16 ≥ 8 then frag else if b0.toNat ≥ 128 then 0 else kindOf frag b0

theorem body_length (frag : Nat) (h : Header) (rest : List UInt8) (f : Nat) (r : List UInt8) (s : List Seen)
    (he : body oc frag h rest = (s, some (f, r))) : r.length ≤ rest.length := by
  unfold body at he
  simp only at he
  have hd : (rest.drop h.len).length ≤ rest.length := by simp
  generalize (if h.opcode = 0 then frag else h.opcode) = kind at he
  split at he
  · split at he
    · cases he
    · split at he
      · cases he
      · split at he
        · cases he; exact hd
        · split at he
          · cases he; exact hd
          · cases he
  · split at he
    · split at he
      · cases he
      · cases he; exact hd
    · split at he <;> cases he

theorem parseHeader_length (s : List UInt8) (h : Header) (rest : List UInt8) (hp : parseHeader s = some (h, rest)) :
    rest.length + 2 ≤ s.length := by
  match s, hp with
  | b0 :: b1 :: r, hp =>
    simp only [parseHeader] at hp
    generalize (if b1.toNat % 128 = 126 then 2 else if b1.toNat % 128 = 127 then 8 else 0) = ext at hp
    generalize (if decide (b1.toNat ≥ 128) = true then 4 else 0) = msk at hp
    by_cases hl : r.length < ext + msk
    · rw [if_pos hl] at hp; cases hp
    · rw [if_neg hl] at hp
      simp only [Option.some.injEq, Prod.mk.injEq] at hp
      rw [← hp.2, List.length_drop]
      simp only [List.length_cons]
      omega

theorem frame_length (srv : Bool) (frag : Nat) (stream : List UInt8) (f : Nat) (r : List UInt8) (s : List Seen)
    (he : frame srv oc frag stream = (s, some (f, r))) : r.length < stream.length := by
  unfold frame at he
  split at he
  · cases he
  · split at he
    · cases he
    · split at he
      · cases he
      · split at he
        · cases he
        · unfold frameFrom at he
          split at he
          · cases he
          · next hp =>
            have h1 := parseHeader_length _ _ _ hp
            have h2 := body_length oc _ _ _ _ _ _ he
            omega

/-- The recursion of `receive` without its termination test. -/
theorem receive_eq (srv : Bool) (frag : Nat) (stream : List UInt8) :
    receive srv oc frag stream = goOn oc srv (frame srv oc frag stream) := by
  rw [receive]
  split
  · next he => rw [he]; rfl
  · next s f r he =>
    rw [he, if_pos (frame_length oc _ _ _ _ _ _ he)]
    rfl

theorem receive_nil (srv : Bool) (frag : Nat) : receive srv oc frag [] = [] := by rw [receive_eq]; rfl

theorem receive_bad (srv : Bool) (frag : Nat) (b0 : UInt8) (s1 : List UInt8)
    (hb : badFirst frag b0 = true) : receive srv oc frag (b0 :: s1) = [.other (.fail 1002)] := by
  rw [receive_eq]
  simp only [frame, hb, if_true, goOn]

theorem badFirst_spec (frag : Nat) (b0 : UInt8) (hb : badFirst frag b0 = false) :
    (8 ≤ b0.toNat % 16 → 128 ≤ b0.toNat) ∧ (b0.toNat % 16 = 0 → frag ≠ 0) ∧ (b0.toNat % 16 ≠ 0 → b0.toNat % 16 < 8 → frag = 0) ∧
    b0.toNat / 16 % 8 = 0 := by
  unfold badFirst at hb
  simp only [Bool.or_eq_false_iff, Bool.and_eq_false_iff, decide_eq_false_iff_not, Bool.not_eq_false', decide_eq_true_eq] at hb
  omega

theorem body_eq (frag : Nat) (hf : frag < 8) (b0 : UInt8) (rx : Rx)
    (h2 : rx.fin = decide (b0.toNat ≥ 128)) (h3 : rx.opcode = kindOf frag b0) (h4 : rx.frag = fragOf frag b0)
    (h : Header) (e1 : h.fin = decide (b0.toNat ≥ 128)) (e2 : h.opcode = b0.toNat % 16) (rest : List UInt8)
    (hm : ∀ data, unmask h.mask data = um rx data) (hl : rx.remaining = h.len) (hl' : rx.frameLength = h.len) :
    goOn oc rx.isServer (body oc frag h rest) = payE oc rx rest := by
  unfold payE body
  simp only [hm, hl, hl', h2, h3, h4, e1, e2, kindOf, fragOf]
  by_cases hc : b0.toNat % 16 ≥ 8
  · have h0 : ¬ (b0.toNat % 16 = 0) := by omega
    simp only [hc, h0, if_true, if_false]
  · have hk : ¬ ((if b0.toNat % 16 = 0 then frag else b0.toNat % 16) ≥ 8) := by split <;> omega
    rw [if_neg hk, if_neg hc]
    simp only [hc, if_false, decide_eq_true_eq]

theorem receive_cons (srv : Bool) (frag : Nat) (hf : frag < 8) (b0 : UInt8) (s1 : List UInt8) (rx : Rx) (h1 : rx.isServer = srv)
    (h2 : rx.fin = decide (b0.toNat ≥ 128)) (h3 : rx.opcode = kindOf frag b0) (h4 : rx.frag = fragOf frag b0)
    (hb : badFirst frag b0 = false) : receive srv oc frag (b0 :: s1) = firstE oc rx s1 := by
  rw [receive_eq]
  simp only [frame, hb]
  rw [if_neg (by simp)]
  match s1 with
  | [] => rfl
  | b1 :: s2 =>
    simp only [firstE]
    have hbs : badSecond rx.isServer rx.opcode b1 = badSecond srv (b0.toNat % 16) b1 := by
      unfold badSecond
      rw [h1, h3, kindOf]
      by_cases h0 : b0.toNat % 16 = 0
      · rw [if_pos h0, h0]
        simp [show ¬ (8 ≤ frag) by omega]
      · rw [if_neg h0]
    rw [hbs]
    by_cases hbad : badSecond srv (b0.toNat % 16) b1 = true
    · rw [if_pos hbad, if_pos hbad]; rfl
    · rw [if_neg hbad, if_neg hbad]
      have hsrv : decide (b1.toNat ≥ 128) = srv := by
        unfold badSecond at hbad
        simp only [Bool.or_eq_true, not_or, bne_iff_ne, ne_eq, Decidable.not_not] at hbad
        exact hbad.1
      -- the parts of the header
      have key : ∀ (n : Nat) (v : Nat),
          (if b1.toNat % 128 = 126 then 2 else if b1.toNat % 128 = 127 then 8 else 0) = n →
          v = (if b1.toNat % 128 < 126 then b1.toNat % 128 else beNat (s2.take n)) →
          goOn oc srv (frameFrom oc frag (parseHeader (b0 :: b1 :: s2))) =
          if s2.length < n then [] else maskE oc { rx with remaining := v, frameLength := v } (s2.drop n) := by
        intro n v hn hv
        simp only [parseHeader, hn]
        by_cases hlt : s2.length < n
        · rw [if_pos hlt, if_pos (by omega)]; rfl
        rw [if_neg hlt]
        by_cases hs : decide (b1.toNat ≥ 128) = true
        · have hs' : rx.isServer = true := by rw [h1, ← hsrv]; exact hs
          unfold maskE
          simp only [hs, hs', if_true]
          by_cases hl : s2.length < n + 4
          · rw [if_pos hl, if_pos (show (s2.drop n).length < 4 by rw [List.length_drop]; omega)]; rfl
          · rw [if_neg hl, if_neg (show ¬ (s2.drop n).length < 4 by rw [List.length_drop]; omega), List.drop_drop]
            rw [show srv = true by rw [← h1, hs']]
            refine body_eq oc frag hf b0 { rx with isServer := true, remaining := v, frameLength := v, mask := WsSend.toMask ((s2.drop n).take 4) }
              h2 h3 h4 _ ?_ ?_ _ ?_ ?_ ?_
            · rfl
            · rfl
            · intro data; simp only [um, if_true]; rfl
            · exact hv
            · exact hv
        · have hs' : rx.isServer = false := by rw [h1, ← hsrv]; simpa using hs
          unfold maskE
          simp only [hs, hs', Bool.false_eq_true, if_false, Nat.add_zero]
          rw [if_neg hlt]
          rw [show srv = false by rw [← h1, hs']]
          refine body_eq oc frag hf b0 { rx with isServer := false, remaining := v, frameLength := v } h2 h3 h4 _ ?_ ?_ _ ?_ ?_ ?_
          · rfl
          · rfl
          · intro data; simp only [um, Bool.false_eq_true, if_false]; rfl
          · exact hv
          · exact hv
      by_cases c1 : b1.toNat % 128 < 126
      · rw [if_pos c1]
        rw [key 0 (b1.toNat % 128) (by rw [if_neg (by omega), if_neg (by omega)]) (by rw [if_pos c1]), if_neg (show ¬ s2.length < 0 by omega), List.drop_zero]
      · rw [if_neg c1]
        have h127 : b1.toNat % 128 < 128 := Nat.mod_lt _ (by omega)
        unfold lenE
        by_cases c2 : b1.toNat % 128 = 126
        · rw [if_pos c2]
          rw [key 2 (beNat (s2.take 2)) (by rw [if_pos c2]) (by rw [if_neg c1])]
        · rw [if_neg c2]
          rw [key 8 (beNat (s2.take 8)) (by rw [if_neg c2, if_pos (by omega)]) (by rw [if_neg c1])]
end
end Cio.WsRecv
