/-
An independent strict base64 decoder after RFC 4648 section 4 (table 1 and the padding rules; non-zero
pad bits are refused as section 3.5 allows, so that every byte string has exactly one encoding).
-/
namespace Cio.Base64

/-- The value of a character of the base64 alphabet, RFC 4648 table 1. -/
def value (c : Char) : Option Nat :=
  if 'A' ≤ c ∧ c ≤ 'Z' then some (c.toNat - 'A'.toNat)
  else if 'a' ≤ c ∧ c ≤ 'z' then some (26 + (c.toNat - 'a'.toNat))
  else if '0' ≤ c ∧ c ≤ '9' then some (52 + (c.toNat - '0'.toNat))
  else if c = '+' then some 62
  else if c = '/' then some 63
  else none

/-- Decoding of a base64 text. -/
def decode : List Char → Option (List UInt8)
  | [] => some []
  | [c0, c1, '=', '='] => do
    let v0 ← value c0; let v1 ← value c1
    let n := v0 * 64 + v1            -- 12 bits: one byte and 4 zero bits
    if n % 16 = 0 then return [UInt8.ofNat (n / 16)] else none
  | [c0, c1, c2, '='] => do
    let v0 ← value c0; let v1 ← value c1; let v2 ← value c2
    let n := (v0 * 64 + v1) * 64 + v2  -- 18 bits: two bytes and 2 zero bits
    if n % 4 = 0 then return [UInt8.ofNat (n / 1024), UInt8.ofNat (n / 4 % 256)] else none
  | c0 :: c1 :: c2 :: c3 :: rest => do
    let v0 ← value c0; let v1 ← value c1; let v2 ← value c2; let v3 ← value c3
    let n := ((v0 * 64 + v1) * 64 + v2) * 64 + v3  -- 24 bits: three bytes
    let r ← decode rest
    return UInt8.ofNat (n / 65536) :: UInt8.ofNat (n / 256 % 256) :: UInt8.ofNat (n % 256) :: r
  | _ => none

end Cio.Base64
