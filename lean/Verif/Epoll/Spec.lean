import Verif.Epoll.Model
/-
Specification of the event loop in terms of what can be observed only: what is registered is read off the log, pending events are
a list, and an event is passed over if its notifier was removed since `epoll_wait` returned it.
-/
namespace Cio.Epoll

/-- Whether notifier `n` is in the loop. -/
def added (n : Nat) (l : Log) : Bool :=
  l.foldl (fun b o => match o with
    | .op (.add m ok) => if m = n then ok else b
    | .op (.remove m) => if m = n then false else b
    | _ => b) false

/-- Whether `n` asked for read events. -/
def wantsRead (n : Nat) (l : Log) : Bool :=
  l.foldl (fun b o => match o with
    | .op (.add m _) => if m = n then false else b
    | .op (.registerRead m _) => if m = n then true else b
    | .op (.unregisterRead m _) => if m = n then false else b
    | _ => b) false

/-- Whether `n` asked for a write event; the request is used up by the call of the write callback. -/
def wantsWrite (n : Nat) (l : Log) : Bool :=
  l.foldl (fun b o => match o with
    | .op (.add m _) => if m = n then false else b
    | .op (.registerWrite m _) => if m = n then true else b
    | .op (.unregisterWrite m _) => if m = n then false else b
    | .write m _ => if m = n then false else b
    | _ => b) false

/-- `n` was removed within this part of the log. -/
def removed (n : Nat) (l : Log) : Bool := l.contains (.op (.remove n))

/-- The calls a program may make. -/
def allowed (l : Log) : Op → Bool
  | .add n _ => n ≠ 0 && !added n l
  | .registerRead n _ | .unregisterRead n _ | .registerWrite n _ | .unregisterWrite n _ | .remove n => n ≠ 0 && added n l
  | .cancel => true

def specOp (l : Log) (o : Op) : Log := if allowed l o then l ++ [.op o] else l

def specCallback (env : Env) (l : Log) (o : Obs) : Log := (env (l ++ [o])).foldl specOp (l ++ [o])

/-- One event of notifier `n`: its read callback is called if it is readable and wants to know; then, unless it was removed by now,
its write callback if it is writable and wants to know. -/
def specEvent (env : Env) (start : Nat) (n : Nat) (e : Ev) (l : Log) : Log :=
  let l := if e.input && wantsRead n l then specCallback env l (.read n) else l
  if !removed n (l.drop start) && e.output && wantsWrite n l then specCallback env l (.write n e.error) else l

/-- The events of one `epoll_wait`, in order; `start` is the length of the log when it returned.  Notifier 0 stops the loop. -/
def specBatch (env : Env) (start : Nat) : List (Nat × Ev) → Log → Log × Bool
  | [], l => (l, false)
  | (n, e) :: rest, l =>
    if removed n (l.drop start) then specBatch env start rest l
    else if n = 0 then (l, true)
    else specBatch env start rest (specEvent env start n e l)

def specWait (l : Log) (proposal : List (Nat × Ev)) : List (Nat × Ev) :=
  (dedup [] (proposal.filter fun x => x.1 = 0 || added x.1 l)).take 100

def specRun (env : Env) : Log → List Wait → Log × Res
  | l, [] => (l, .running)
  | l, .interrupted :: ws => specRun env l ws
  | l, .failed :: _ => (l, .error)
  | l, .events p :: ws =>
    match specBatch env (l.length + 1) (specWait l p) (l ++ [.wait (specWait l p)]) with
    | (l, true) => (l, .ok)
    | (l, false) => specRun env l ws

def specExec (env : Env) : Log → List Act → Log
  | l, [] => l
  | l, .call o :: as => specExec env (specOp l o) as
  | l, .run ws :: as =>
    match specRun env l ws with
    | (l, .running) => l
    | (l, _) => specExec env l as

end Cio.Epoll
