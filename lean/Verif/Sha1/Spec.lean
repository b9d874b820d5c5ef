/-
SHA-1 as specified in FIPS 180-4 (sections 2.2.2, 4.1.1, 4.2.1, 5.1.1, 5.2.1, 5.3.1, 6.1.2), written independently of the model.
-/
namespace Cio.Sha1.Fips

/-- Section 4.1.1: Ch, Parity and Maj. -/
def Ch (x y z : BitVec 32) := (x &&& y) ^^^ (~~~x &&& z)
def Parity (x y z : BitVec 32) := x ^^^ y ^^^ z
def Maj (x y z : BitVec 32) := (x &&& y) ^^^ (x &&& z) ^^^ (y &&& z)

/-- The function used in step `t`. -/
def f (t : Nat) (x y z : BitVec 32) : BitVec 32 :=
  if t ≤ 19 then Ch x y z else if t ≤ 39 then Parity x y z else if t ≤ 59 then Maj x y z else Parity x y z

/-- Section 4.2.1: the constants. -/
def K (t : Nat) : BitVec 32 :=
  if t ≤ 19 then 0x5a827999#32 else if t ≤ 39 then 0x6ed9eba1#32 else if t ≤ 59 then 0x8f1bbcdc#32 else 0xca62c1d6#32

/-- Section 5.3.1: the initial hash value. -/
def H0 : List (BitVec 32) := [0x67452301#32, 0xefcdab89#32, 0x98badcfe#32, 0x10325476#32, 0xc3d2e1f0#32]

/-- The number denoted by bytes, most significant first. -/
def number (bs : List UInt8) : Nat := bs.foldl (fun n b => n * 256 + b.toNat) 0

/-- Section 5.2.1: word `t` of a 64 byte block, big-endian. -/
def M (block : List UInt8) (t : Nat) : BitVec 32 := BitVec.ofNat 32 (number ((block.drop (4 * t)).take 4))

/-- Section 6.1.2, step 1: the message schedule. -/
def W (block : List UInt8) (t : Nat) : BitVec 32 :=
  if t ≤ 15 then M block t
  else BitVec.rotateLeft (W block (t - 3) ^^^ W block (t - 8) ^^^ W block (t - 14) ^^^ W block (t - 16)) 1
termination_by t

/-- Section 6.1.2, step 3, for one `t`. -/
def step (block : List UInt8) (t : Nat) : List (BitVec 32) → List (BitVec 32)
  | [a, b, c, d, e] => [a.rotateLeft 5 + f t b c d + e + K t + W block t, a, b.rotateLeft 30, c, d]
  | other => other

/-- Section 6.1.2: processing of one block. -/
def compress (h : List (BitVec 32)) (block : List UInt8) : List (BitVec 32) :=
  List.zipWith (· + ·) h ((List.range 80).foldl (fun v t => step block t v) h)

/-- The bytes of a number, most significant first. -/
def bytes : Nat → Nat → List UInt8
  | 0, _ => []
  | n + 1, v => bytes n (v / 256) ++ [UInt8.ofNat (v % 256)]

/-- Section 5.1.1: padding to a multiple of 512 bits: a one bit, the smallest number of zero bits, the length in bits. -/
def pad (msg : List UInt8) : List UInt8 :=
  msg ++ [0x80] ++ List.replicate ((119 - msg.length % 64) % 64) 0 ++ bytes 8 (8 * msg.length)

/-- `n` blocks in sequence. -/
def blocks : Nat → List (BitVec 32) → List UInt8 → List (BitVec 32)
  | 0, h, _ => h
  | n + 1, h, m => blocks n (compress h (m.take 64)) (m.drop 64)

/-- The digest of a message of bytes, 20 bytes. -/
def sha1 (msg : List UInt8) : List UInt8 :=
  (blocks ((pad msg).length / 64) H0 (pad msg)).flatMap (fun w => bytes 4 w.toNat)

end Cio.Sha1.Fips
