import Verif.HttpLife.Log
/-
Invariants of executions that obey the rules of `Rule`.
-/
namespace Cio.HttpLife

/-- What the theorems about releasing the client need; `Neg` shows what happens otherwise. -/
structure Rule (s : State) (c : Choice) : Prop where
  /-- the user does not close the client in the callback that tells that the response was written, unless it is called while a request is parsed -/
  close : ∀ ok rest, s.stack = .userWritten ok :: rest → c.act = .close → s.w.parsing ≠ 0
  /-- no request arrives together with the end of the one before -/
  url : ∀ u, c.act = .onUrl u → s.w.phase = .start
  /-- handlers can be allocated and freed -/
  alloc : c.act ≠ .onUrl .noHandler ∧ c.act ≠ .onUrl .noFree
  /-- the socket does not wait for the peer when a response is still to be written -/
  linger : s.w.writing = true → c.linger = false

def Item.inner : Item → Bool
  | .exec _ | .tail .. | .bsRet => false
  | _ => true

/-- Stacks while a request is parsed. -/
def deep : List Item → Bool
  | [.exec _, .bsRet] => true
  | [.tail _ _, .bsRet] => true
  | x :: l => x.inner && deep l
  | [] => false

/-- Stacks while no request is parsed: `call_handler` or nothing, below what `strip` removes. -/
def strip : List Item → List Item
  | .serverError :: l => l
  | .written _ :: l => l
  | .writtenEnd _ _ :: l => l
  | .userWritten _ :: .writtenEnd _ _ :: l => l
  | .restart :: l => l
  | l => l

def Item.isErr : Item → Bool
  | .serverError => true
  | _ => false

def Item.isEnd : Item → Bool
  | .writtenEnd .. => true
  | _ => false

def Item.isMsg : Item → Bool
  | .user .message _ _ => true
  | .messageEnd _ => true
  | _ => false

def Item.isHdr : Item → Bool
  | .user .headers _ _ => true
  | .headersEnd _ => true
  | _ => false

def Item.isUw : Item → Bool
  | .userWritten _ => true
  | .written _ => true
  | .writtenEnd .. => true
  | _ => false

def hasUw : List Item → Bool
  | [] => false
  | x :: l => x.isUw || hasUw l

def hasErr : List Item → Bool
  | [] => false
  | x :: l => x.isErr || hasErr l

def hasEnd : List Item → Bool
  | [] => false
  | x :: l => x.isEnd || hasEnd l

def hasMsg : List Item → Bool
  | [] => false
  | x :: l => x.isMsg || hasMsg l

def hasHdr : List Item → Bool
  | [] => false
  | x :: l => x.isHdr || hasHdr l

def Item.isUrl : Item → Bool
  | .user .url _ _ => true
  | .urlNext => true
  | _ => false

def hasUrl : List Item → Bool
  | [] => false
  | x :: l => x.isUrl || hasUrl l

def topExec : List Item → Bool
  | .exec _ :: _ => true
  | _ => false

def topTail : List Item → Bool
  | .tail _ _ :: _ => true
  | _ => false

def topBad : List Item → Bool
  | .tail _ true :: _ => true
  | _ => false

/-- The end of a message is dealt with directly above the parser. -/
def seated : List Item → Bool
  | [] => true
  | x :: l => (!x.isMsg || topExec l) && seated l

/-- The client is not being closed. -/
structure Open (w : World) (st : List Item) : Prop where
  c0 : w.closes = 0
  so : w.sock = .open
  sc : w.shallClose = false
  nu : w.ub = false
  shape : (w.parsing = 1 ∧ w.running = 1 ∧ deep st = true ∧ w.reading = false) ∨ (w.parsing = 0 ∧ w.running = 0 ∧ strip st = []) ∨
    (w.parsing = 0 ∧ w.running = 1 ∧ strip st = [.bsRet])
  hs : w.phase = .start → w.handler = none
  hn : w.dead = false → w.phase = .header ∨ w.phase = .body → w.fired = false ∨ w.fieldCb = true → w.handler ≠ none
  rc : w.reqComplete = true → w.written = true ∧ w.phase = .done
  cw : w.completed = true → w.written = true
  wf : w.written = true → w.fired = true
  rd : w.parsing = 1 → w.reqComplete = true → topExec st = true ∨ topTail st = true
  um : hasMsg st = true → w.phase = .done
  uh : hasHdr st = true → w.phase = .body
  uu : hasUrl st = true → w.phase = .header
  b1 : w.written = true → w.completed = false → w.respT.armed = true
  fin : w.reading = true → w.finish ≠ .restart ∧ w.reqComplete = false
  mf : hasMsg st = true → w.upgrade = false → w.finish = .restart
  se : seated st = true
  b2 : w.parsing = 1 → w.finish = .restart →
    w.toBeClosed = true ∨ w.reqComplete = true ∨ w.closeImm = true ∨ hasMsg st = true ∨ hasErr st = true
  b4 : w.parsing = 0 → w.upgrade = false → w.reading = true ∨ w.reqComplete = true ∨ w.closeImm = true ∨ hasErr st = true
  b5 : w.closeImm = true → (w.parsing = 1 ∧ w.toBeClosed = true) ∨ (w.written = true ∧ w.completed = false) ∨ hasEnd st = true ∨
    hasErr st = true
  a0 : w.parsing = 0 → w.reqComplete = true → w.completed = true → w.upgrade = false → strip st ≠ st
  a1 : w.parsing = 1 → w.reqComplete = true → w.upgrade = false → w.finish = .restart
  c1 : w.reading = true → w.reqT.armed = true ∨ w.closeImm = true
  c2 : w.parsing = 1 → w.reqT.armed = true ∨ w.closeImm = true ∨ w.toBeClosed = true ∨ w.upgrade = true ∨ w.finish = .restart ∨ w.skip = true ∨
    hasHdr st = true ∨ hasErr st = true ∨ topBad st = true
  sk : w.skip = true → w.parsing = 1 ∧ topExec st = true ∧ w.phase = .body ∧ w.dead = false
  dd : w.dead = true → w.parsing = 1 → topExec st = true ∨ topTail st = true
  ur : w.upgrade = true → w.reading = false
  uw : hasUw st = true → w.written = true
  ww : w.writing = true → w.written = true ∧ w.completed = false ∧ hasUw st = false

/-- The client has been closed, once. -/
structure Closed (w : World) (st : List Item) : Prop where
  c1 : w.closes = 1
  nu : w.ub = false
  p0 : w.parsing = 0
  rq : w.reqT.armed = false
  rs : w.respT.armed = false
  hd : w.handler = none
  st : (st = [] ∧ w.running = 0 ∧ w.sock ≠ .open ∧ w.reading = false ∧ w.writing = false) ∨
    (st = [.bsRet] ∧ w.running = 1 ∧ w.sock = .open ∧ w.shallClose = true)

def Inv (s : State) : Prop := Open s.w s.stack ∨ Closed s.w s.stack

theorem inv_init : Inv init := by
  left
  constructor <;> simp [init, strip, hasMsg, hasHdr, hasUw, hasUrl, seated]

theorem deep_inner {x : Item} {l : List Item} (hx : x.inner = true) : deep (x :: l) = deep l := by
  cases x <;> simp_all [deep, Item.inner]

theorem deep_base1 (e : Bool) : deep [.exec e, .bsRet] = true := rfl

theorem deep_base2 (e b : Bool) : deep [.tail e b, .bsRet] = true := rfl

/-- Closing a client that was not closed before. -/
theorem closed_closeClient {w : World} {st : List Item} {l : Bool} (h0 : w.closes = 0) (h1 : w.sock = .open) (h2 : w.ub = false)
    (h3 : w.parsing = 0) (h4 : (st = [] ∧ w.running = 0) ∨ (st = [.bsRet] ∧ w.running = 1)) (h5 : w.writing = true → l = false) : Closed (closeClient w l) st := by
  rcases h4 with ⟨rfl, hr⟩ | ⟨rfl, hr⟩
  · constructor <;> cases hh : w.handler <;> cases l <;> simp_all [closeClient, freeHandler, bsClose, streamClose, World.ev]
  · constructor <;> cases hh : w.handler <;> simp_all [closeClient, freeHandler, bsClose, World.ev]

end Cio.HttpLife
