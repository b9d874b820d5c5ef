/-
Model of /repo/lib/src/platform/linux/endian.c (and include/cio/endian.h).  An unsigned integer of `n` bytes is a natural number
below `256 ^ n`; its memory representation (what `memcpy` from the variable copies) depends on the byte order of the host.
-/
namespace Cio.Endian

/-- Byte order of the host. -/
inductive Order where
  | little
  | big
deriving DecidableEq, Repr

/-- The `n` bytes of `v`, least significant first. -/
def leBytes : Nat → Nat → List UInt8
  | 0, _ => []
  | n + 1, v => UInt8.ofNat (v % 256) :: leBytes n (v / 256)

/-- The number whose bytes, least significant first, are given. -/
def ofLe : List UInt8 → Nat
  | [] => 0
  | b :: bs => b.toNat + 256 * ofLe bs

/-- What `memcpy` out of an `n` byte variable holding `v` copies. -/
def toMem (o : Order) (n v : Nat) : List UInt8 :=
  match o with
  | .little => leBytes n v
  | .big => (leBytes n v).reverse

/-- The value of a variable after `memcpy` of the bytes into it. -/
def ofMem (o : Order) (bs : List UInt8) : Nat :=
  match o with
  | .little => ofLe bs
  | .big => ofLe bs.reverse

/-- The byte swap of libc (`__bswap_16/32/64`). -/
def bswap (n v : Nat) : Nat := ofLe (leBytes n v).reverse

/-- `cio_htobe16/32/64` (n = 2, 4, 8), linux/endian.c 49-62, over glibc's `htobeNN`. -/
def htobe (o : Order) (n v : Nat) : Nat := match o with | .little => bswap n v | .big => v
/-- `cio_be16/32/64toh`, linux/endian.c 34-47. -/
def betoh (o : Order) (n v : Nat) : Nat := match o with | .little => bswap n v | .big => v
/-- `cio_htole16/32/64`, linux/endian.c 79-92. -/
def htole (o : Order) (n v : Nat) : Nat := match o with | .little => v | .big => bswap n v
/-- `cio_le16/32/64toh`, linux/endian.c 64-77. -/
def letoh (o : Order) (n v : Nat) : Nat := match o with | .little => v | .big => bswap n v

end Cio.Endian
