/-
Model of /repo/lib/cio/sha1/sha1.c.
-/
namespace Cio.Sha1

abbrev Word := BitVec 32

/-- Five 32-bit words: `intermediate_hash[5]` (sha1.h) or the local variables A, B, C, D, E. -/
structure H5 where
  a : Word
  b : Word
  c : Word
  d : Word
  e : Word
deriving DecidableEq, Repr

/-- `sha1_context`, sha1.h. -/
structure Ctx where
  hash : H5
  lengthLow : Word
  lengthHigh : Word
  index : Nat
  block : List UInt8
  computed : Bool
  corrupted : Nat
deriving DecidableEq, Repr

/-- The error codes of sha1.h. -/
def SHA_SUCCESS : Nat := 0
def SHA_NULL : Nat := 1
def SHA_INPUT_TOO_LONG : Nat := 2
def SHA_STATE_ERROR : Nat := 3

/-- `SHA1_CIRCULAR_SHIFT`, sha1.c 37-38. -/
def circularShift (bits : Nat) (word : Word) : Word := (word <<< bits) ||| (word >>> (32 - bits))

/-- `sha1_reset`, sha1.c 55-75: the message block itself is left as it is (it is uninitialised memory at first). -/
def reset (ctx : Ctx) : Ctx :=
  { ctx with
    lengthLow := 0, lengthHigh := 0, index := 0,
    hash := ⟨0x67452301#32, 0xEFCDAB89#32, 0x98BADCFE#32, 0x10325476#32, 0xC3D2E1F0#32⟩,
    computed := false, corrupted := 0 }

/-- A byte as a 32-bit word. -/
def w8 (b : UInt8) : Word := b.toBitVec.zeroExtend 32

/-- The array `W`, as a map from indices; entries that are not written yet are 0 here and never read. -/
abbrev Arr := Nat → Word

def Arr.set (w : Arr) (t : Nat) (v : Word) : Arr := fun i => if i = t then v else w i

/-- One word of the block, sha1.c 118-121. -/
def blockWord (block : List UInt8) (t : Nat) : Word :=
  ((w8 (block.getD (t * 4) 0) <<< 24 ||| w8 (block.getD (t * 4 + 1) 0) <<< 16) |||
    w8 (block.getD (t * 4 + 2) 0) <<< 8) ||| w8 (block.getD (t * 4 + 3) 0)

/-- First loop, sha1.c 117-122 (`n` iterations from `t`). -/
def loadLoop (block : List UInt8) : Nat → Nat → Arr → Arr
  | _, 0, w => w
  | t, n + 1, w => loadLoop block (t + 1) n (w.set t (blockWord block t))

/-- Second loop, sha1.c 124-126. -/
def expandLoop : Nat → Nat → Arr → Arr
  | _, 0, w => w
  | t, n + 1, w =>
    expandLoop (t + 1) n (w.set t (circularShift 1 (w (t - 3) ^^^ w (t - 8) ^^^ w (t - 14) ^^^ w (t - 16))))

/-- The body shared by the four round loops, e.g. sha1.c 135-142. -/
def roundBody (f : Word → Word → Word → Word) (k : Word) (wt : Word) (v : H5) : H5 :=
  let temp := circularShift 5 v.a + f v.b v.c v.d + v.e + wt + k
  let e := v.d
  let d := v.c
  let c := circularShift 30 v.b
  let b := v.a
  let a := temp
  ⟨a, b, c, d, e⟩

/-- A round loop from `t` with `n` iterations. -/
def roundLoop (f : Word → Word → Word → Word) (k : Word) (w : Arr) : Nat → Nat → H5 → H5
  | _, 0, v => v
  | t, n + 1, v => roundLoop f k w (t + 1) n (roundBody f k (w t) v)

/-- The round functions as they are written in sha1.c 136, 146, 156, 165. -/
def f1 (b c d : Word) : Word := (b &&& c) ||| ((~~~ b) &&& d)
def f2 (b c d : Word) : Word := b ^^^ c ^^^ d
def f3 (b c d : Word) : Word := ((b &&& c) ||| (b &&& d)) ||| (c &&& d)

/-- The computation of `sha1_process_message_block`, sha1.c 98-180. -/
def processBlock (h : H5) (block : List UInt8) : H5 :=
  let w := loadLoop block 0 16 (fun _ => 0)
  let w := expandLoop 16 64 w
  let v := roundLoop f1 0x5A827999#32 w 0 20 h
  let v := roundLoop f2 0x6ED9EBA1#32 w 20 20 v
  let v := roundLoop f3 0x8F1BBCDC#32 w 40 20 v
  let v := roundLoop f2 0xCA62C1D6#32 w 60 20 v
  ⟨h.a + v.a, h.b + v.b, h.c + v.c, h.d + v.d, h.e + v.e⟩

/-- `sha1_process_message_block` on the context, sha1.c 98-180. -/
def process (ctx : Ctx) : Ctx := { ctx with hash := processBlock ctx.hash ctx.block, index := 0 }

/-- `context->message_block[context->message_block_index++] = v`; `none` is a write outside of the block. -/
def put (ctx : Ctx) (v : UInt8) : Option Ctx :=
  if ctx.index < ctx.block.length then some { ctx with block := ctx.block.set ctx.index v, index := ctx.index + 1 }
  else none

/-- The length counter, sha1.c 340-347. -/
def countBits (ctx : Ctx) : Ctx :=
  let low := ctx.lengthLow + 8
  if low = 0 then
    let high := ctx.lengthHigh + 1
    if high = 0 then { ctx with lengthLow := low, lengthHigh := high, corrupted := 1 }
    else { ctx with lengthLow := low, lengthHigh := high }
  else { ctx with lengthLow := low }

/-- One iteration of the loop of `sha1_input`, sha1.c 337-353. -/
def inputByte (ctx : Ctx) (b : UInt8) : Option Ctx := do
  let ctx ← put ctx b
  let ctx := countBits ctx
  if ctx.index = 64 then return process ctx else return ctx

/-- The loop of `sha1_input`, sha1.c 336-354. -/
def inputLoop : Ctx → List UInt8 → Option Ctx
  | ctx, [] => some ctx
  | ctx, b :: bs =>
    if ctx.corrupted ≠ 0 then some ctx
    else do
      let ctx ← inputByte ctx b
      inputLoop ctx bs

/-- `sha1_input`, sha1.c 315-357: error code and new context; `none` is undefined behaviour. Null pointers are not modelled. -/
def input (ctx : Ctx) (msg : List UInt8) : Option (Nat × Ctx) :=
  if msg.length = 0 then some (SHA_SUCCESS, ctx)
  else if ctx.computed then some (SHA_STATE_ERROR, { ctx with corrupted := SHA_STATE_ERROR })
  else if ctx.corrupted ≠ 0 then some (ctx.corrupted, ctx)
  else do
    let ctx ← inputLoop ctx msg
    return (SHA_SUCCESS, ctx)

/-- `while (index < limit) block[index++] = 0`, sha1.c 215-217, 221-223, 226-229.  The first argument bounds the number of
iterations. -/
def zeroFill (limit : Nat) : Nat → Ctx → Option Ctx
  | 0, ctx => if ctx.index < limit then none else some ctx
  | n + 1, ctx => if ctx.index < limit then do let ctx ← put ctx 0; zeroFill limit n ctx else some ctx

/-- `message_block[i] = v` for a constant index. -/
def poke (ctx : Ctx) (i : Nat) (v : UInt8) : Option Ctx :=
  if i < ctx.block.length then some { ctx with block := ctx.block.set i v } else none

/-- `(uint8_t)(w >> k)`. -/
def byteOf (w : Word) (k : Nat) : UInt8 := UInt8.ofBitVec ((w >>> k).truncate 8)

/-- The padding bytes of `sha1_pad_message`, sha1.c 205-229. -/
def padBytes (ctx : Ctx) : Option Ctx :=
  if ctx.index > 55 then do
    let ctx ← put ctx 0x80
    let ctx ← zeroFill 64 64 ctx
    let ctx := process ctx
    zeroFill 56 64 ctx
  else do
    let ctx ← put ctx 0x80
    zeroFill 56 64 ctx

/-- The length of the message and the last block, end of `sha1_pad_message`, sha1.c 231-244. -/
def padLength (ctx : Ctx) : Option Ctx := do
  let ctx ← poke ctx 56 (byteOf ctx.lengthHigh 24)
  let ctx ← poke ctx 57 (byteOf ctx.lengthHigh 16)
  let ctx ← poke ctx 58 (byteOf ctx.lengthHigh 8)
  let ctx ← poke ctx 59 (byteOf ctx.lengthHigh 0)
  let ctx ← poke ctx 60 (byteOf ctx.lengthLow 24)
  let ctx ← poke ctx 61 (byteOf ctx.lengthLow 16)
  let ctx ← poke ctx 62 (byteOf ctx.lengthLow 8)
  let ctx ← poke ctx 63 (byteOf ctx.lengthLow 0)
  return process ctx

/-- `sha1_pad_message`, sha1.c 205-245. -/
def padMessage (ctx : Ctx) : Option Ctx := do
  let ctx ← padBytes ctx
  padLength ctx

/-- `intermediate_hash[i]`. -/
def H5.get (h : H5) : Nat → Word
  | 0 => h.a
  | 1 => h.b
  | 2 => h.c
  | 3 => h.d
  | _ => h.e

/-- The output loop, sha1.c 288-290: byte `i` is `intermediate_hash[i >> 2] >> 8 * (3 - (i & 3))`. -/
def digestBytes (h : H5) : List UInt8 := (List.range 20).map (fun i => byteOf (h.get (i >>> 2)) (8 * (3 - (i &&& 3))))

/-- `sha1_result`, sha1.c 266-293: code, digest (if written) and new context. -/
def result (ctx : Ctx) : Option (Nat × Option (List UInt8) × Ctx) :=
  if ctx.corrupted ≠ 0 then some (ctx.corrupted, none, ctx)
  else if ctx.computed then some (SHA_SUCCESS, some (digestBytes ctx.hash), ctx)
  else do
    let ctx ← padMessage ctx
    let ctx := { ctx with block := List.replicate 64 0, lengthLow := 0, lengthHigh := 0, computed := true }
    return (SHA_SUCCESS, some (digestBytes ctx.hash), ctx)

/-- A user: one `sha1_input` per piece. -/
def inputs : Ctx → List (List UInt8) → Option (List Nat × Ctx)
  | ctx, [] => some ([], ctx)
  | ctx, m :: ms => do
    let (r, ctx) ← input ctx m
    let (rs, ctx) ← inputs ctx ms
    return (r :: rs, ctx)

end Cio.Sha1
