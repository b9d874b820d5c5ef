/-
RFC 6455 section 5.2, the base framing protocol, from the point of view of somebody who reads bytes.  No reference to the code.
-/
namespace Cio.Rfc6455

structure Header where
  fin : Bool
  rsv : Nat
  opcode : Nat
  mask : Option (List UInt8)
  len : Nat
deriving DecidableEq, Repr

/-- Network byte order. -/
def beNat (bs : List UInt8) : Nat := bs.foldl (fun acc b => acc * 256 + b.toNat) 0

/-- The header at the start of a byte string, and the rest. -/
def parseHeader : List UInt8 → Option (Header × List UInt8)
  | b0 :: b1 :: rest =>
    let fin := decide (b0.toNat ≥ 128)
    let rsv := b0.toNat / 16 % 8
    let opcode := b0.toNat % 16
    let masked := decide (b1.toNat ≥ 128)
    let len7 := b1.toNat % 128
    let ext := if len7 = 126 then 2 else if len7 = 127 then 8 else 0
    let len := if len7 < 126 then len7 else beNat (rest.take ext)
    let msk := if masked then 4 else 0
    if rest.length < ext + msk then none
    else some (⟨fin, rsv, opcode, if masked then some ((rest.drop ext).take 4) else none, len⟩, rest.drop (ext + msk))
  | _ => none

/-- The length is encoded in the least number of bytes, and in 63 bits. -/
def MinimalLength (hdr : List UInt8) (len : Nat) : Prop :=
  match hdr with
  | _ :: b1 :: _ => (b1.toNat % 128 = 127 → len ≥ 65536) ∧ (b1.toNat % 128 = 126 → len ≥ 126 ∧ len < 65536) ∧
      (b1.toNat % 128 < 126 → len < 126)
  | _ => False

end Cio.Rfc6455
