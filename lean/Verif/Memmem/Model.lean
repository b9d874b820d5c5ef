/-
Model of /repo/lib/src/platform/shared/string_memmem.c (the Linux port forwards to libc's `memmem`,
src/platform/linux/string.c, for which the same specification is assumed).
-/
namespace Cio.Memmem

/-- `memcmp(haystack + a, needle + b, n) == 0`; `none` is a read outside of one of the two objects. -/
def memEq (haystack needle : List UInt8) : Nat → Nat → Nat → Option Bool
  | _, _, 0 => some true
  | a, b, n + 1 => do
    let x ← haystack[a]?
    let y ← needle[b]?
    let r ← memEq haystack needle (a + 1) (b + 1) n
    return x == y && r

/-- The search loop, string_memmem.c 57-61: `begin` runs while `begin <= last_possible`; the first argument is the number of
positions left. -/
def search (haystack needle : List UInt8) (point : UInt8) : Nat → Nat → Option (Option Nat)
  | 0, _ => some none
  | n + 1, begin => do
    let x ← haystack[begin]?
    if x == point then
      if (← memEq haystack needle (begin + 1) 1 (needle.length - 1)) then return some begin
      else search haystack needle point n (begin + 1)
    else search haystack needle point n (begin + 1)

/-- `cio_memmem`, string_memmem.c 34-64.  The outer option is undefined behaviour (an out-of-bounds read), the inner one
NULL; a position is relative to `haystack`. -/
def memmem (haystack needle : List UInt8) : Option (Option Nat) :=
  if needle.length = 0 then some (some 0)
  else if haystack.length < needle.length then some none
  else do
    let point ← needle[0]?
    search haystack needle point (haystack.length - needle.length + 1) 0

end Cio.Memmem
