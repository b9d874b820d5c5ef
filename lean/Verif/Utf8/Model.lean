/-
Model of /repo/lib/src/utf8_checker.c (UTF-8 checker, Hoehrmann DFA).
-/
namespace Cio.Utf8

/-- `CIO_UTF8_ACCEPT`, include/cio/utf8_checker.h 42. -/
def ACCEPT : UInt8 := 0
/-- `CIO_UTF8_REJECT`, include/cio/utf8_checker.h 42. -/
def REJECT : UInt8 := 12

/-- The table `UTF8D`, utf8_checker.c 10-380, copied verbatim by a script: 256 character classes
followed by 9 rows of 12 transitions.  -/
def UTF8D : List UInt8 :=
  [0, 0, 0, 0, 0, 0, 0, 0, 0, 0, 0, 0, 0, 0, 0, 0, 0, 0, 0, 0, 0, 0, 0, 0, 0, 0, 0, 0, 0, 0, 0, 0,
   0, 0, 0, 0, 0, 0, 0, 0, 0, 0, 0, 0, 0, 0, 0, 0, 0, 0, 0, 0, 0, 0, 0, 0, 0, 0, 0, 0, 0, 0, 0, 0,
   0, 0, 0, 0, 0, 0, 0, 0, 0, 0, 0, 0, 0, 0, 0, 0, 0, 0, 0, 0, 0, 0, 0, 0, 0, 0, 0, 0, 0, 0, 0, 0,
   0, 0, 0, 0, 0, 0, 0, 0, 0, 0, 0, 0, 0, 0, 0, 0, 0, 0, 0, 0, 0, 0, 0, 0, 0, 0, 0, 0, 0, 0, 0, 0,
   1, 1, 1, 1, 1, 1, 1, 1, 1, 1, 1, 1, 1, 1, 1, 1, 9, 9, 9, 9, 9, 9, 9, 9, 9, 9, 9, 9, 9, 9, 9, 9,
   7, 7, 7, 7, 7, 7, 7, 7, 7, 7, 7, 7, 7, 7, 7, 7, 7, 7, 7, 7, 7, 7, 7, 7, 7, 7, 7, 7, 7, 7, 7, 7,
   8, 8, 2, 2, 2, 2, 2, 2, 2, 2, 2, 2, 2, 2, 2, 2, 2, 2, 2, 2, 2, 2, 2, 2, 2, 2, 2, 2, 2, 2, 2, 2,
   10, 3, 3, 3, 3, 3, 3, 3, 3, 3, 3, 3, 3, 4, 3, 3, 11, 6, 6, 6, 5, 8, 8, 8, 8, 8, 8, 8, 8, 8, 8, 8,
   0, 12, 24, 36, 60, 96, 84, 12, 12, 12, 48, 72,
   12, 12, 12, 12, 12, 12, 12, 12, 12, 12, 12, 12,
   12, 0, 12, 12, 12, 12, 12, 0, 12, 0, 12, 12,
   12, 24, 12, 12, 12, 12, 12, 24, 12, 24, 12, 12,
   12, 12, 12, 12, 12, 12, 12, 24, 12, 12, 12, 12,
   12, 24, 12, 12, 12, 12, 12, 12, 12, 24, 12, 12,
   12, 12, 12, 12, 12, 12, 12, 36, 12, 36, 12, 12,
   12, 36, 12, 12, 12, 12, 12, 36, 12, 36, 12, 12,
   12, 36, 12, 12, 12, 12, 12, 12, 12, 12, 12, 12]

/-- `struct cio_utf8_state`, include/cio/utf8_checker.h 45-48. -/
structure State where
  codepoint : UInt8
  state : UInt8
deriving DecidableEq, Repr

/-- `decode`, utf8_checker.c 387-395.  `none` is an out-of-bounds read of `UTF8D` (undefined behaviour). The
C expression promotes to `int` and truncates to `uint8_t`; `type` is below 12, so all shifts are defined. -/
def decode (s : State) (byte : UInt8) : Option State := do
  let type ← UTF8D[byte.toNat]?
  let codep : UInt8 :=
    if s.state ≠ ACCEPT then (byte &&& (0x3f : UInt8)) ||| (s.codepoint <<< (6 : UInt8))
    else UInt8.ofNat (0xff >>> type.toNat) &&& byte
  let st ← UTF8D[256 + s.state.toNat + type.toNat]?
  return { codepoint := codep, state := st }

/-- The three loops of `cio_check_utf8` share this body (utf8_checker.c 415-422, 428-433, 437-444): decode `n`
bytes of `mem` starting at index `i`, leave at the first REJECT.  The result is the new state and whether
the loop left early.  `none`: a read outside of `mem` or of the table. -/
def scan (mem : List UInt8) : Nat → Nat → State → Option (State × Bool)
  | _, 0, s => some (s, false)
  | i, n + 1, s => do
    let b ← mem[i]?
    let s' ← decode s b
    if s'.state = REJECT then return (s', true)
    else scan mem (i + 1) n s'

/-- The main loop, utf8_checker.c 424-434: `n` words of 8 bytes (`sizeof(uint_fast32_t)` on LP64) from
index `i`, each copied to a local buffer first. -/
def scanWords (mem : List UInt8) : Nat → Nat → State → Option (State × Bool)
  | _, 0, s => some (s, false)
  | i, n + 1, s => do
    let buffer := (mem.drop i).take 8
    let (s', rej) ← scan buffer 0 8 s
    if rej then return (s', true)
    else scanWords mem (i + 8) n s'

/-- `cio_check_utf8`, utf8_checker.c 397-446, for a string of `string.length` bytes located at address
`addr`.  Result: the return value and the updated state. -/
def check (s : State) (addr : Nat) (string : List UInt8) : Option (UInt8 × State) := do
  let count := string.length
  let (pre, main, post) :=
    if count ≥ 8 then
      let pre := (8 - addr % 8) % 8
      let main := (count - pre) / 8
      (pre, main, count - pre - main * 8)
    else (count, 0, 0)
  let (s1, rej) ← scan string 0 pre s
  if rej then return (REJECT, s1)
  let (s2, rej) ← scanWords string pre main s1
  if rej then return (REJECT, s2)
  let (s3, rej) ← scan string (count - post) post s2
  if rej then return (REJECT, s3)
  return (s3.state, s3)

/-- `cio_utf8_init`, utf8_checker.c 448-451.  Only `state` is set; `codepoint` keeps whatever it was. -/
def init (s : State) : State := { s with state := 0 }

/-- A user of the checker that feeds a string in several calls: each piece is a pair of an address and the
bytes there.  The verdict is the one of the last call (the state if there was none). -/
def checkPieces (s : State) : List (Nat × List UInt8) → Option (UInt8 × State)
  | [] => some (s.state, s)
  | (a, bs) :: rest => do
    let (r, s') ← check s a bs
    match rest with
    | [] => return (r, s')
    | _ => checkPieces s' rest

end Cio.Utf8
