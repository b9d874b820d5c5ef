/-
Model of /repo/lib/src/base64.c.
-/
namespace Cio.Base64

/-- `ENCODE_TABLE`, base64.c 36. -/
def ENCODE_TABLE : List Char := "ABCDEFGHIJKLMNOPQRSTUVWXYZabcdefghijklmnopqrstuvwxyz0123456789+/".toList

/-- A read of `ENCODE_TABLE`; `none` is a read outside of the 64 characters (and would be undefined behaviour or the
terminating NUL). -/
def tableAt (i : UInt32) : Option Char := ENCODE_TABLE[i.toNat]?

/-- One iteration of the outer loop, base64.c 41-66: the group of four output characters for one to three
input bytes (`triple`, zero filled, and `len`). -/
def group (t0 t1 t2 : UInt32) (len : Nat) : Option (List Char) := do
  let c0 ← tableAt (t0 >>> 2)
  let c1 ← tableAt (((t0 &&& 0x03) <<< 4) ||| ((t1 &&& 0xf0) >>> 4))
  let c2 ← if len > 1 then tableAt (((t1 &&& 0x0f) <<< 2) ||| ((t2 &&& 0xc0) >>> 6)) else some '='
  let c3 ← if len > 2 then tableAt (t2 &&& 0x3f) else some '='
  return [c0, c1, c2, c3]

/-- `cio_b64_encode_buffer`, base64.c 38-69.  The result is what is written to `out`. -/
def encode : List UInt8 → Option (List Char)
  | [] => some []
  | [a] => group a.toUInt32 0 0 1
  | [a, b] => group a.toUInt32 b.toUInt32 0 2
  | a :: b :: c :: rest => do
    let g ← group a.toUInt32 b.toUInt32 c.toUInt32 3
    let r ← encode rest
    return g ++ r

end Cio.Base64
