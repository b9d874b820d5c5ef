import Verif.HttpResponse.Spec
/-
Specification: what a client sees of the bytes that arrive on one connection.  It reads one response after the other, each as long as RFC 7230, section 3.3.3 says.  It knows
nothing of the code.
-/
namespace Cio.HttpTcp
open HttpResponse.Rfc7230 (Bytes Response read number)

/-- Field names are case-insensitive (section 3.2). -/
def lower (s : Bytes) : Bytes := s.map fun b => if 65 ≤ b ∧ b ≤ 90 then b + 32 else b

/-- The values of all `Content-Length` fields. -/
def lengths (fs : List (Bytes × Bytes)) : List Bytes :=
  (fs.filter fun f => lower f.1 = [99, 111, 110, 116, 101, 110, 116, 45, 108, 101, 110, 103, 116, 104]).map (·.2)

/-- The length of the body.  A response with status 1xx has none; any other one must say how long it is. -/
def bodyLength (status : Nat) (fs : List (Bytes × Bytes)) : Option Nat :=
  if status / 100 = 1 then some 0
  else match lengths fs with
    | [v] => number v
    | _ => none

/-- The first response, and the bytes behind it; `none` if it is not complete yet (or not a response). -/
def readOne (w : Bytes) : Option (Response × Bytes) :=
  (read w).bind fun r => (bodyLength r.status r.fields).bind fun n =>
    if n ≤ r.body.length then some ({ r with body := r.body.take n }, r.body.drop n) else none

/-- All complete responses, at most `k`, and the bytes behind them. -/
def readAll : Nat → Bytes → List Response × Bytes
  | 0, w => ([], w)
  | k + 1, w =>
    match readOne w with
    | none => ([], w)
    | some (r, rest) => (r :: (readAll k rest).1, (readAll k rest).2)

/-- All complete responses in `w` (there is none without bytes), and the bytes behind them. -/
def responses (w : Bytes) : List Response × Bytes := readAll w.length w

end Cio.HttpTcp
