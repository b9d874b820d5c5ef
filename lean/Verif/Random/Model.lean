/-
Model of /repo/lib/src/random.c (PCG32 XSH-RR generator).
-/
namespace Cio.Random

/-- `MULTIPLIER`, random.c 32. -/
def MULTIPLIER : BitVec 64 := 6364136223846793005#64

/-- `struct pcg_state_setseq_64`, include/cio/random.h. -/
structure Rng where
  state : BitVec 64
  inc : BitVec 64
deriving DecidableEq, Repr

/-- `pcg_setseq_64_step_r`, random.c 38-41. -/
def step (r : Rng) : Rng := { r with state := r.state * MULTIPLIER + r.inc }

/-- `pcg_setseq_64_srandom_r`, random.c 43-51. -/
def srandom (initstate initseq : BitVec 64) : Rng :=
  let r : Rng := { state := 0, inc := (initseq <<< 1) ||| 1 }
  let r := step r
  let r := { r with state := r.state + initstate }
  step r

/-- `pcg_rotr_32`, random.c 53-56 (`unsigned int` is 32 bits; `~rot + 1` is `-rot`). -/
def rotr32 (value : BitVec 32) (rot : BitVec 32) : BitVec 32 :=
  (value >>> rot) ||| (value <<< ((~~~rot + 1) &&& 31#32))

/-- `pcg_output_xsh_rr_64_32`, random.c 58-61. -/
def output (state : BitVec 64) : BitVec 32 :=
  rotr32 ((((state >>> 18) ^^^ state) >>> 27).truncate 32) ((state >>> 59).truncate 32)

/-- `pcg32_random_r`, random.c 63-68. -/
def random (r : Rng) : BitVec 32 × Rng := (output r.state, step r)

/-- Result of `cio_entropy_get_bytes`: 16 bytes of entropy, or an error. -/
inductive Entropy (Err : Type) where
  | ok (s0 s1 : BitVec 64)
  | fail (e : Err)

/-- `cio_random_seed_rng`, random.c 70-81; `none` is CIO_SUCCESS. -/
def seed {Err : Type} : Entropy Err → Option Err × Rng
  | .ok s0 s1 => (none, srandom s0 s1)
  | .fail e => (some e, srandom 0 0)

/-- `cio_random_get_bytes`, random.c 83-90: the bytes written and the new generator. -/
def getBytes : Nat → Rng → List UInt8 × Rng
  | 0, r => ([], r)
  | n + 1, r =>
    let (v, r) := random r
    let (bs, r) := getBytes n r
    (UInt8.ofBitVec (v.truncate 8) :: bs, r)

/-- A client that requests bytes in pieces of the given sizes. -/
def getPieces : List Nat → Rng → List UInt8 × Rng
  | [], r => ([], r)
  | n :: ns, r =>
    let (a, r) := getBytes n r
    let (b, r) := getPieces ns r
    (a ++ b, r)

end Cio.Random
