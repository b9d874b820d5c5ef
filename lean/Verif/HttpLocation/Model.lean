import Verif.Common
/-
Model of the registration and the lookup of HTTP locations: /repo/lib/src/http_location.c, `cio_http_server_register_location`,
`location_match` and `find_location` of /repo/lib/src/http_server.c.
-/
namespace Cio.HttpLocation

/-- `struct cio_http_location`, include/cio/http_location.h: `path` is the memory the C string points to, *including* its
terminating NUL and whatever follows it; `next` is the link of the server's list.  `config` and `alloc_handler` are not looked at
by the lookup and left out. -/
structure Loc where
  path : List UInt8
  next : Option Nat

/-- The part of `struct cio_http_server` the lookup uses.  Location objects live in a heap and are addressed by numbers. -/
structure Server where
  heap : Nat → Loc
  first : Option Nat
  num : Nat

/-- `cio_http_server_init`, http_server.c 761-762: no locations. -/
def init (heap : Nat → Loc) : Server := { heap := heap, first := none, num := 0 }

/-- `cio_http_location_init`, http_location.c 35-48; `none` stands for NULL. -/
def locationInit (heap : Nat → Loc) (location : Option Nat) (path : Option (List UInt8)) (handlerGiven : Bool) :
    Err × (Nat → Loc) :=
  match location, path, handlerGiven with
  | some a, some p, true => (SUCCESS, fun x => if x = a then { path := p, next := none } else heap x)
  | _, _, _ => (INVALID_ARGUMENT, heap)

/-- `cio_http_server_register_location`, http_server.c 801-811. -/
def register (s : Server) (location : Option Nat) : Err × Server :=
  match location with
  | none => (INVALID_ARGUMENT, s)
  | some a =>
    (SUCCESS,
      { heap := fun x => if x = a then { s.heap a with next := s.first } else s.heap x, first := some a, num := s.num + 1 })

/-- `strlen`; `none` if there is no NUL in the object (undefined behaviour). -/
def strlen : List UInt8 → Option Nat
  | [] => none
  | b :: bs => if b = 0 then some 0 else (strlen bs).map (· + 1)

/-- `memcmp(a, b, n) == 0`; `none` is a read outside of one of the objects. -/
def memEq : List UInt8 → List UInt8 → Nat → Option Bool
  | _, _, 0 => some true
  | a :: as, b :: bs, n + 1 => (memEq as bs n).map fun r => a == b && r
  | _, _, _ + 1 => none

/-- The character `/`. -/
def slash : UInt8 := 47

/-- `location_match`, http_server.c 291-316.  `target` is the memory of exactly `target_length` bytes. -/
def locationMatch (location : List UInt8) (locationLength : Nat) (target : List UInt8) (targetLength : Nat) : Option Bool := do
  if locationLength = 0 then return false
  if targetLength < locationLength then return false
  if (← memEq target location locationLength) then
    if locationLength = targetLength then return true
    if (← location[locationLength - 1]?) = slash then return true
    if (← target[locationLength]?) = slash then return true
  return false

/-- The loop of `find_location`, http_server.c 324-332: the first argument counts the iterations left.  `none` is undefined
behaviour (NULL dereference or out-of-bounds read). -/
def findLoop (heap : Nat → Loc) (target : List UInt8) : Nat → Option Nat → Option Nat → Nat → Option (Option Nat)
  | 0, _, best, _ => some best
  | n + 1, location, best, bestLength => do
    let a ← location
    let locationLength ← strlen (heap a).path
    if (← locationMatch (heap a).path locationLength target target.length) && decide (locationLength > bestLength) then
      findLoop heap target n (heap a).next (some a) locationLength
    else
      findLoop heap target n (heap a).next best bestLength

/-- `find_location`, http_server.c 318-335; the answer is the location that was found or NULL. -/
def findLocation (s : Server) (target : List UInt8) : Option (Option Nat) :=
  findLoop s.heap target s.num s.first none 0

/-- What `on_url` does with the path of the request, http_server.c 496-502. -/
inductive Route where
  | notFound              -- a 404 response is written
  | handler (loc : Nat)   -- the handler of this location is allocated
  deriving DecidableEq, Repr

def route (s : Server) (path : List UInt8) : Option Route :=
  (findLocation s path).map fun r => match r with
    | none => .notFound
    | some a => .handler a

/-- A server set up by a list of registrations. -/
def registerAll (s : Server) : List Nat → Server
  | [] => s
  | a :: as => registerAll (register s (some a)).2 as

end Cio.HttpLocation
