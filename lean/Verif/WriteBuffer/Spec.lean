/-
Specification of write buffers: sequences of elements.  Nothing here refers to the linked structure.
-/
namespace Cio.WB.Spec

abbrev Addr := Nat

/-- What a user knows: which nodes are initialised elements (data pointer and length) and which nodes are buffers, containing which sequence
of elements. -/
structure State where
  elem : Addr → Option (Nat × Nat)
  buf : Addr → Option (List Addr)

def setFn {α : Type} (f : Addr → α) (a : Addr) (v : α) : Addr → α := fun x => if x = a then v else f x

/-- The node is contained in no buffer. -/
def Free (s : State) (a : Addr) : Prop := ∀ hd xs, s.buf hd = some xs → a ∉ xs

def length (s : State) (a : Addr) : Nat := ((s.elem a).getD (0, 0)).2

def total (s : State) (xs : List Addr) : Nat := (xs.map (length s)).sum

/-- The operations of the API. -/
inductive Op where
  | headInit (b : Addr)
  | elementInit (e data len : Nat)
  | queueBefore (b next new : Addr)
  | queueAfter (b prev new : Addr)
  | queueHead (b new : Addr)
  | queueTail (b new : Addr)
  | unlink (b e : Addr)
  | dequeue (b : Addr)
  | splice (list b : Addr)
  | splitAndAppend (to frm e : Addr)
  | peek (b : Addr)
  | last (b : Addr)
  | isEmpty (b : Addr)
  | totalSize (b : Addr)
  | numElements (b : Addr)

/-- What a call returns. -/
inductive Res where
  | unit
  | elem (e : Option Addr)
  | bool (v : Bool)
  | num (n : Nat)
deriving DecidableEq

/-- Insert `new` before respectively after `x`. -/
def before (x new : Addr) : List Addr → List Addr
  | [] => []
  | y :: ys => if y = x then new :: y :: ys else y :: before x new ys

def after (x new : Addr) : List Addr → List Addr
  | [] => []
  | y :: ys => if y = x then y :: new :: ys else y :: after x new ys

/-- The rules of use: elements are initialised, an element is in at most one buffer, positions are in the buffer they are said to be in. -/
def Allowed (valid : Addr → Bool) (s : State) : Op → Prop
  | .headInit b => valid b = true ∧ Free s b
  | .elementInit e _ _ => valid e = true ∧ s.buf e = none ∧ Free s e
  | .queueBefore b nx new => (∃ xs, s.buf b = some xs ∧ (nx = b ∨ nx ∈ xs)) ∧ (∃ d, s.elem new = some d) ∧ Free s new
  | .queueAfter b pv new => (∃ xs, s.buf b = some xs ∧ (pv = b ∨ pv ∈ xs)) ∧ (∃ d, s.elem new = some d) ∧ Free s new
  | .queueHead b new => (∃ xs, s.buf b = some xs) ∧ (∃ d, s.elem new = some d) ∧ Free s new
  | .queueTail b new => (∃ xs, s.buf b = some xs) ∧ (∃ d, s.elem new = some d) ∧ Free s new
  | .unlink b e => ∃ xs, s.buf b = some xs ∧ e ∈ xs
  | .dequeue b => ∃ xs, s.buf b = some xs
  | .splice l b => l ≠ b ∧ (∃ xs, s.buf l = some xs) ∧ ∃ xs, s.buf b = some xs
  | .splitAndAppend t f e => t ≠ f ∧ (∃ xs, s.buf t = some xs) ∧ ∃ xs, s.buf f = some xs ∧ (e = f ∨ e ∈ xs)
  | .peek b => ∃ xs, s.buf b = some xs
  | .last b => ∃ xs, s.buf b = some xs
  | .isEmpty b => ∃ xs, s.buf b = some xs
  | .totalSize b => ∃ xs, s.buf b = some xs
  | .numElements b => ∃ xs, s.buf b = some xs

/-- The sequence in a buffer. -/
def seqOf (s : State) (b : Addr) : List Addr := (s.buf b).getD []

/-- What each operation does to the sequences.  A position equal to the buffer itself means its end (`queueBefore`), its start (`queueAfter`,
`splitAndAppend`). -/
def step (s : State) : Op → State
  | .headInit b => { s with elem := setFn s.elem b none, buf := setFn s.buf b (some []) }
  | .elementInit e d l => { s with elem := setFn s.elem e (some (d, l)) }
  | .queueBefore b nx new =>
    { s with buf := setFn s.buf b (some (if nx = b then seqOf s b ++ [new] else before nx new (seqOf s b))) }
  | .queueAfter b pv new =>
    { s with buf := setFn s.buf b (some (if pv = b then new :: seqOf s b else after pv new (seqOf s b))) }
  | .queueHead b new => { s with buf := setFn s.buf b (some (new :: seqOf s b)) }
  | .queueTail b new => { s with buf := setFn s.buf b (some (seqOf s b ++ [new])) }
  | .unlink b e => { s with buf := setFn s.buf b (some ((seqOf s b).erase e)) }
  | .dequeue b => { s with buf := setFn s.buf b (some ((seqOf s b).tail)) }
  | .splice l b => { s with buf := setFn (setFn s.buf b (some (seqOf s b ++ seqOf s l))) l (some []) }
  | .splitAndAppend t f e =>
    if e = f then { s with buf := setFn (setFn s.buf t (some (seqOf s t ++ seqOf s f))) f (some []) }
    else { s with buf := setFn (setFn s.buf t (some (seqOf s t ++ (seqOf s f).dropWhile (· ≠ e)))) f
                           (some ((seqOf s f).takeWhile (· ≠ e))) }
  | _ => s

/-- What each operation returns. -/
def result (s : State) : Op → Res
  | .dequeue b => .elem (seqOf s b).head?
  | .peek b => .elem (seqOf s b).head?
  | .last b => .elem (seqOf s b).getLast?
  | .isEmpty b => .bool (seqOf s b).isEmpty
  | .totalSize b => .num (total s (seqOf s b) % 2 ^ 64)
  | .numElements b => .num ((seqOf s b).length % 2 ^ 64)
  | _ => .unit

/-- A history of operations that all obey the rules of use. -/
def AllAllowed (valid : Addr → Bool) : State → List Op → Prop
  | _, [] => True
  | s, o :: os => Allowed valid s o ∧ AllAllowed valid (step s o) os

def run : State → List Op → State
  | s, [] => s
  | s, o :: os => run (step s o) os

def results : State → List Op → List Res
  | _, [] => []
  | s, o :: os => result s o :: results (step s o) os

end Cio.WB.Spec
