/-
Specification: what the receiver of a response sees.  A small reader of HTTP/1.1 messages after RFC 7230, section 3; it knows nothing of the code.
-/
namespace Cio.HttpResponse.Rfc7230

abbrev Bytes := List UInt8

/-- The line up to the first CR LF, and what follows. -/
def cutLine : Bytes → Option (Bytes × Bytes)
  | [] => none
  | [_] => none
  | a :: b :: r => if a = 13 ∧ b = 10 then some ([], r) else (cutLine (b :: r)).map (fun x => (a :: x.1, x.2))

/-- The lines up to the empty line that ends the header, and the body after it.  `n` bounds the number of lines. -/
def cutHeader : Nat → Bytes → Option (List Bytes × Bytes)
  | 0, _ => none
  | n + 1, w =>
    match cutLine w with
    | none => none
    | some ([], rest) => some ([], rest)
    | some (l, rest) => (cutHeader n rest).map (fun x => (l :: x.1, x.2))

/-- `field-name ":" OWS field-value`, section 3.2. -/
def field (l : Bytes) : Option (Bytes × Bytes) :=
  match l.dropWhile (· ≠ 58) with
  | [] => none
  | _ :: v => if l.head? = some 58 then none else some (l.takeWhile (· ≠ 58), v.dropWhile (· = 32))

/-- All of them, or nothing. -/
def fields : List Bytes → Option (List (Bytes × Bytes))
  | [] => some []
  | l :: ls => match field l, fields ls with
    | some f, some fs => some (f :: fs)
    | _, _ => none

def digit (b : UInt8) : Option Nat := if 48 ≤ b ∧ b ≤ 57 then some (b.toNat - 48) else none

/-- `1*DIGIT` and its value. -/
def number : Bytes → Option Nat
  | [] => none
  | l => l.foldl (fun a b => match a, digit b with | some x, some d => some (10 * x + d) | _, _ => none) (some 0)

/-- `"HTTP/1.1" SP 3DIGIT SP reason-phrase`, section 3.1.2. -/
def statusCode (l : Bytes) : Option Nat :=
  match l with
  | [72, 84, 84, 80, 47, 49, 46, 49, 32, a, b, c] => number [a, b, c]
  | 72 :: 84 :: 84 :: 80 :: 47 :: 49 :: 46 :: 49 :: 32 :: a :: b :: c :: 32 :: _ => number [a, b, c]
  | _ => none

/-- A response as its receiver sees it. -/
structure Response where
  status : Nat
  fields : List (Bytes × Bytes)
  body : Bytes
deriving DecidableEq

/-- A reader of everything sent for one response. -/
def read (w : Bytes) : Option Response :=
  match cutHeader (w.length + 1) w with
  | some (start :: ls, body) =>
    match statusCode start, fields ls with
    | some s, some fs => some { status := s, fields := fs, body := body }
    | _, _ => none
  | _ => none

end Cio.HttpResponse.Rfc7230
