import Verif.Common
/-
Reading, writing and closing of serial ports, /repo/lib/src/platform/linux/uart.c 58-165 and 338-353, for one port (C40).

As for sockets this is a small-step machine whose moves carry what the operating system does.  The event loop calls the read callback
whenever the port is readable, because the port is registered for reading from `cio_uart_init` on (uart.c 322) until it is closed.
-/
namespace Cio.Uart.Io

inductive Obs where
  | arrived (data : List UInt8)                        -- bytes arrived at the port
  | readStarted (t : Nat)
  | readDone (t : Nat) (err : Err) (data : List UInt8)  -- the read handler is called, `data` was appended to its buffer
  | writeStarted (t : Nat)
  | writeDone (t : Nat) (err : Err) (count : Nat)
  | writeRefused (t : Nat) (err : Err)
  | closed                                             -- close(2)
  | hook
  deriving DecidableEq, Repr

inductive Item where
  | user
  | afterHook        -- cio_uart_close behind the close hook, uart.c 349-350
  deriving DecidableEq, Repr

/-- What write(2) does. -/
inductive SendRes where
  | sent (n : Nat)
  | again
  | error (e : Err)
  deriving DecidableEq, Repr

/-- What read(2) does. -/
inductive ReadRes where
  | bytes (n : Nat)
  | again
  | error (e : Err)
  deriving DecidableEq, Repr

structure St where
  readCb : Bool                 -- `ev.read_callback` has been set (it is not initialised by `cio_uart_init`)
  reader : Nat                  -- `stream.read_handler`
  space : Nat                   -- room left in `stream.read_buffer`
  nextRead : Nat
  regOut : Bool
  writer : Nat                  -- `stream.write_handler`
  nextWrite : Nat
  inLoop : Bool                 -- the notifier is in the event loop
  usable : Bool                 -- not closed
  freed : Bool                  -- the memory was given back by the user
  incoming : List UInt8         -- bytes in the receive buffer of the operating system
  outgoing : List UInt8         -- bytes accepted by the operating system
  stack : List Item
  ub : Bool
  log : List Obs
  deriving DecidableEq, Repr

inductive Move where
  | enter | leave
  | arrive (d : List UInt8)
  | read (space : Nat)
  | readable (r : ReadRes)
  | write (chain : List (List UInt8)) (rs : List SendRes) (ok : Bool)   -- `rs`: the results of the write(2) calls (everything is accepted behind the end)
  | writable (e : Option Err)  -- `e`: the error that epoll(7) signalled, as `cio_linux_get_socket_error` returns it
  | close
  | free                       -- the user releases the memory (in the close hook or later)
  | continue
  deriving DecidableEq, Repr

def call (s : St) (o : Obs) : St := { s with log := s.log ++ [o], stack := .user :: s.stack }

/-- `stream_read`, uart.c 87-102. -/
def streamRead (s : St) (space : Nat) : St :=
  { s with readCb := true, reader := s.nextRead, space := space, nextRead := s.nextRead + 1, log := s.log ++ [.readStarted s.nextRead] }

/-- `read_callback`, uart.c 58-85 (the event loop passes no errors to read callbacks). -/
def readCallback (s : St) (r : ReadRes) : St :=
  match r with
  | .again => s
  | .error e => call s (.readDone s.reader e [])
  | .bytes n =>
    let d := s.incoming.take (min n s.space)
    if d.length = 0 then call s (.readDone s.reader EOF [])
    else call { s with incoming := s.incoming.drop d.length, space := s.space - d.length } (.readDone s.reader SUCCESS d)

/-- The loop of `stream_write`, uart.c 127-142: the number of bytes written, the bytes, and why it stopped. -/
def writeLoop : List (List UInt8) → List SendRes → Nat → List UInt8 → Nat × List UInt8 × Option SendRes
  | [], _, w, out => (w, out, none)
  | e :: es, rs, w, out =>
    match rs.headD (.sent e.length) with
    | .sent n =>
      let n := min n e.length
      if n ≠ e.length then (w + n, out ++ e.take n, none) else writeLoop es rs.tail (w + n) (out ++ e.take n)
    | r => (w, out, some r)

/-- `stream_write`, uart.c 118-160. -/
def streamWrite (s : St) (chain : List (List UInt8)) (rs : List SendRes) (ok : Bool) : St :=
  let t := s.nextWrite
  let (w, out, stop) := writeLoop chain rs 0 []
  let s := { s with nextWrite := t + 1, outgoing := s.outgoing ++ out }
  match stop with
  | none => call { s with log := s.log ++ [.writeStarted t] } (.writeDone t SUCCESS w)
  | some .again =>
    let s := { s with writer := t, regOut := true }
    if ok then { s with log := s.log ++ [.writeStarted t] } else { s with log := s.log ++ [.writeRefused t (-9)] }
  | some (.error e) => { s with log := s.log ++ [.writeRefused t e] }
  | some (.sent _) => s

/-- `write_callback`, uart.c 104-116; the event loop has ended the registration for EPOLLOUT before, epoll.c 170. -/
def writeCallback (s : St) (e : Option Err) : St := call { s with regOut := false } (.writeDone s.writer (e.getD SUCCESS) 0)

/-- `cio_uart_close`, uart.c 338-353; the port has a close hook. -/
def close (s : St) : St := { s with usable := false, log := s.log ++ [.closed, .hook], stack := .user :: .afterHook :: s.stack }

/-- One step. -/
def step (s : St) (m : Move) : Option St :=
  if s.ub then none
  else
    match m, s.stack with
    | .arrive d, _ => some { s with incoming := s.incoming ++ d, log := s.log ++ [.arrived d] }
    | .enter, [] => some { s with stack := [.user] }
    | .leave, .user :: k => some { s with stack := k }
    | .read space, .user :: _ => if s.usable then some (streamRead s space) else none
    | .write c rs ok, .user :: _ => if s.usable then some (streamWrite s c rs ok) else none
    | .close, .user :: _ => if s.usable then some (close s) else none
    | .free, .user :: _ => if s.usable then none else some { s with freed := true }
    | .continue, .afterHook :: k =>
      -- cio_linux_eventloop_unregister_read and cio_linux_eventloop_remove, uart.c 349-350
      if s.freed then some { s with ub := true } else some { s with inLoop := false, stack := k }
    | .readable r, [] => if s.inLoop && s.usable then (if s.readCb then some (readCallback s r) else some { s with ub := true }) else none
    | .writable e, [] => if s.inLoop && s.usable && s.regOut then some (writeCallback s e) else none
    | _, _ => none

/-- After `cio_uart_init`. -/
def initial : St :=
  { readCb := false, reader := 0, space := 0, nextRead := 0, regOut := false, writer := 0, nextWrite := 0, inLoop := true, usable := true,
    freed := false, incoming := [], outgoing := [], stack := [.user], ub := false, log := [] }

def run : St → List Move → Option St
  | s, [] => some s
  | s, m :: ms => (step s m).bind fun s => run s ms

/-! ### Specification -/

def arrived (l : List Obs) : List UInt8 := l.flatMap fun o => match o with | .arrived d => d | _ => []
def delivered (l : List Obs) : List UInt8 := l.flatMap fun o => match o with | .readDone _ _ d => d | _ => []
def readDones (t : Nat) (l : List Obs) : Nat := l.countP fun o => match o with | .readDone u _ _ => u = t | _ => false

inductive Reach (rules : St → Move → Prop) : St → Prop
  | init : Reach rules initial
  | step {s s' : St} {m : Move} (h : Reach rules s) (hr : rules s m) (hs : step s m = some s') : Reach rules s'

/-- Rules of use: the user starts a read before the event loop runs, and in every read handler a new one; and does not release the
memory of the port in its close hook. -/
def Rules (s : St) : Move → Prop
  | .leave => s.usable = true → s.stack.length = 1 → s.readCb = true ∧ readDones s.reader s.log = 0
  | .free => s.inLoop = false
  | .readable (.error e) => e < 0
  | _ => True

/-! ### Theorems -/

theorem arrived_append (a b : List Obs) : arrived (a ++ b) = arrived a ++ arrived b := List.flatMap_append
theorem delivered_append (a b : List Obs) : delivered (a ++ b) = delivered a ++ delivered b := List.flatMap_append
theorem readDones_append (t : Nat) (a b : List Obs) : readDones t (a ++ b) = readDones t a + readDones t b := List.countP_append

/-- C40: no byte is lost, duplicated or reordered: what the read handlers got so far, followed by what is waiting, is what arrived.  This
needs no rules. -/
theorem bytes_exact {rules : St → Move → Prop} {s : St} (h : Reach rules s) : delivered s.log ++ s.incoming = arrived s.log := by
  induction h with
  | init => rfl
  | @step s s' m h hr hs ih =>
    unfold step at hs
    split at hs
    · cases hs
    · split at hs
      · injection hs with hs; subst hs
        simp only [delivered_append, arrived_append]
        simp [delivered, arrived]
        rw [← List.append_assoc]
        exact congrArg (· ++ _) ih
      · injection hs with hs; subst hs; exact ih
      · injection hs with hs; subst hs; exact ih
      · split at hs
        · injection hs with hs; subst hs
          simp only [streamRead, delivered_append, arrived_append]
          simpa [delivered, arrived] using ih
        · cases hs
      · split at hs
        · injection hs with hs; subst hs
          unfold streamWrite
          simp only
          split
          · simp only [call, delivered_append, arrived_append]
            simpa [delivered, arrived] using ih
          · split
            · simp only [delivered_append, arrived_append]
              simpa [delivered, arrived] using ih
            · simp only [delivered_append, arrived_append]
              simpa [delivered, arrived] using ih
          · simp only [delivered_append, arrived_append]
            simpa [delivered, arrived] using ih
          · exact ih
        · cases hs
      · split at hs
        · injection hs with hs; subst hs
          simp only [close, delivered_append, arrived_append]
          simpa [delivered, arrived] using ih
        · cases hs
      · split at hs
        · cases hs
        · injection hs with hs; subst hs; exact ih
      · split at hs
        · injection hs with hs; subst hs; exact ih
        · injection hs with hs; subst hs; exact ih
      · split at hs
        · split at hs
          · injection hs with hs; subst hs
            unfold readCallback
            split
            · exact ih
            · simp only [call, delivered_append, arrived_append]
              simpa [delivered, arrived] using ih
            · rename_i n
              simp only
              split
              · simp only [call, delivered_append, arrived_append]
                simpa [delivered, arrived] using ih
              · simp only [call, delivered_append, arrived_append]
                have e1 : delivered [.readDone s.reader SUCCESS (s.incoming.take (min n s.space))] = s.incoming.take (min n s.space) := by
                  simp [delivered]
                have e2 : arrived [.readDone s.reader SUCCESS (s.incoming.take (min n s.space))] = [] := by simp [arrived]
                rw [e1, e2, List.append_nil, ← ih, List.append_assoc]
                congr 1
                generalize min n s.space = k
                rw [List.length_take]
                by_cases hk : k ≤ s.incoming.length
                · rw [Nat.min_eq_left hk, List.take_append_drop]
                · rw [Nat.min_eq_right (by omega), List.take_of_length_le (by omega), List.drop_length, List.append_nil]
          · injection hs with hs; subst hs; exact ih
        · cases hs
      · split at hs
        · injection hs with hs; subst hs
          simp only [writeCallback, call, delivered_append, arrived_append]
          simpa [delivered, arrived] using ih
        · cases hs
      · cases hs

/-- Invariant for programs within the rules. -/
structure Inv (s : St) : Prop where
  ub : s.ub = false
  fresh : ∀ t, s.nextRead ≤ t → readDones t s.log = 0
  le : ∀ t, readDones t s.log ≤ 1
  cb : s.readCb = true → s.reader < s.nextRead
  none : s.readCb = false → s.nextRead = 0
  idle : s.stack = [] → s.usable = true → s.readCb = true ∧ readDones s.reader s.log = 0
  shape : (s.usable = true → s.inLoop = true ∧ s.freed = false) ∧ (s.inLoop = true → s.freed = false)
  hook : s.stack.count .afterHook = if s.usable = false ∧ s.inLoop = true then 1 else 0

theorem readDones_one (t u : Nat) (e : Err) (d : List UInt8) : readDones u [.readDone t e d] = if t = u then 1 else 0 := by
  unfold readDones; by_cases h : t = u <;> simp [h]

theorem inv_init : Inv initial := by
  constructor <;> simp [initial, readDones]

/-- Moves that neither complete nor start reads. -/
theorem inv_quiet {s s' : St} {l : List Obs} (hi : Inv s) (hl : ∀ t, readDones t l = 0) (e1 : s'.log = s.log ++ l) (e2 : s'.ub = s.ub)
    (e3 : s'.nextRead = s.nextRead) (e4 : s'.readCb = s.readCb) (e5 : s'.reader = s.reader) (e6 : s'.usable = s.usable) (e7 : s'.inLoop = s.inLoop)
    (e8 : s'.freed = s.freed) (e9 : s'.stack = s.stack ∨ s'.stack = .user :: s.stack) : Inv s' := by
  obtain ⟨h1, h2, h3, h4, h5, h6, h7, h8⟩ := hi
  constructor
  · rw [e2, h1]
  · intro t ht; rw [e1, readDones_append, hl, h2 t (by omega)]
  · intro t; rw [e1, readDones_append, hl]; exact h3 t
  · rw [e4, e5, e3]; exact h4
  · rw [e4, e3]; exact h5
  · intro hst hu
    rw [e4, e5, e1, readDones_append, hl]
    rcases e9 with e | e
    · exact h6 (by rw [← e]; exact hst) (by rw [← e6]; exact hu)
    · rw [e] at hst; cases hst
  · rw [e6, e7, e8]; exact h7
  · rw [e6, e7]
    rcases e9 with e | e
    · rw [e]; exact h8
    · rw [e]; simpa using h8

/-- The read handler is called. -/
theorem inv_done {s s' : St} {e : Err} {d : List UInt8} (hi : Inv s) (hst : s.stack = []) (hu : s.usable = true)
    (e1 : s'.log = s.log ++ [.readDone s.reader e d]) (e2 : s'.ub = s.ub)
    (e3 : s'.nextRead = s.nextRead) (e4 : s'.readCb = s.readCb) (e5 : s'.reader = s.reader) (e6 : s'.usable = s.usable) (e7 : s'.inLoop = s.inLoop)
    (e8 : s'.freed = s.freed) (e9 : s'.stack = .user :: s.stack) : Inv s' := by
  obtain ⟨h1, h2, h3, h4, h5, h6, h7, h8⟩ := hi
  have hp := h6 hst hu
  constructor
  · rw [e2, h1]
  · intro t ht
    have := h4 hp.1
    rw [e1, readDones_append, readDones_one, h2 t (by omega), if_neg (by omega)]
  · intro t
    rw [e1, readDones_append, readDones_one]
    by_cases h : s.reader = t
    · subst h; rw [hp.2]; simp
    · rw [if_neg h]; exact h3 t
  · rw [e4, e5, e3]; exact h4
  · rw [e4, e3]; exact h5
  · intro hst; rw [e9] at hst; cases hst
  · rw [e6, e7, e8]; exact h7
  · rw [e6, e7, e9]; simpa using h8

theorem inv_step {s s' : St} {m : Move} (hi : Inv s) (hr : Rules s m) (hs : step s m = some s') : Inv s' := by
  have hi0 := hi
  obtain ⟨h1, h2, h3, h4, h5, h6, h7, h8⟩ := hi
  unfold step at hs
  split at hs
  · cases hs
  · split at hs
    · injection hs with hs; subst hs
      exact inv_quiet (l := [.arrived _]) hi0 (fun t => (by simp [readDones])) rfl rfl rfl rfl rfl rfl rfl rfl (.inl rfl)
    · rename_i hst
      injection hs with hs; subst hs
      exact inv_quiet (l := []) hi0 (fun t => rfl) (by simp) rfl rfl rfl rfl rfl rfl rfl (.inr (by rw [hst]))
    · rename_i k hst
      injection hs with hs; subst hs
      refine ⟨h1, h2, h3, h4, h5, ?_, h7, ?_⟩
      · intro hk hu
        have hk : k = [] := hk
        exact hr hu (by rw [hst, hk]; rfl)
      · rw [hst] at h8; simpa using h8
    · rename_i space k hst
      split at hs
      · injection hs with hs; subst hs
        have hself : ∀ t, readDones t [.readStarted s.nextRead] = 0 := fun t => by simp [readDones]
        unfold streamRead
        constructor
        · exact h1
        · intro t ht
          have ht : s.nextRead + 1 ≤ t := ht
          show readDones t (s.log ++ _) = 0
          rw [readDones_append, hself, h2 t (by omega)]
        · intro t
          show readDones t (s.log ++ _) ≤ 1
          rw [readDones_append, hself]; exact h3 t
        · intro _; exact Nat.lt_succ_self _
        · intro h; cases h
        · intro h; rw [hst] at h; cases h
        · exact h7
        · exact h8
      · cases hs
    · rename_i c rs ok k hst
      split at hs
      · injection hs with hs; subst hs
        unfold streamWrite
        simp only
        split
        · exact inv_quiet (l := [.writeStarted s.nextWrite, .writeDone s.nextWrite SUCCESS (writeLoop c rs 0 []).1]) hi0 (fun t => (by simp [readDones])) (by simp [call]) rfl rfl rfl rfl rfl rfl rfl (.inr rfl)
        · split
          · exact inv_quiet (l := [.writeStarted s.nextWrite]) hi0 (fun t => (by simp [readDones])) rfl rfl rfl rfl rfl rfl rfl rfl (.inl rfl)
          · exact inv_quiet (l := [.writeRefused s.nextWrite (-9)]) hi0 (fun t => (by simp [readDones])) rfl rfl rfl rfl rfl rfl rfl rfl (.inl rfl)
        · exact inv_quiet (l := [.writeRefused s.nextWrite _]) hi0 (fun t => (by simp [readDones])) rfl rfl rfl rfl rfl rfl rfl rfl (.inl rfl)
        · exact inv_quiet (l := []) hi0 (fun t => rfl) (by simp) rfl rfl rfl rfl rfl rfl rfl (.inl rfl)
      · cases hs
    · rename_i k hst
      split at hs
      · rename_i hu
        injection hs with hs; subst hs
        have hself : ∀ t, readDones t [.closed, .hook] = 0 := fun t => by simp [readDones]
        unfold close
        refine ⟨h1, ?_, ?_, h4, h5, ?_, ?_, ?_⟩
        · intro t ht
          show readDones t (s.log ++ _) = 0
          rw [readDones_append, hself, h2 t ht]
        · intro t
          show readDones t (s.log ++ _) ≤ 1
          rw [readDones_append, hself]; exact h3 t
        · intro _ h; cases h
        · exact ⟨fun h => (by cases h), h7.2⟩
        · have := (h7.1 hu).1
          rw [hu] at h8
          simp at h8
          simp [this, h8]
      · cases hs
    · rename_i k hst
      split at hs
      · cases hs
      · rename_i hu
        injection hs with hs; subst hs
        have hr : s.inLoop = false := hr
        refine ⟨h1, h2, h3, h4, h5, h6, ⟨fun h => absurd h hu, fun h => ?_⟩, h8⟩
        have h : s.inLoop = true := h
        rw [hr] at h; cases h
    · rename_i k hst
      have h9 := h8
      rw [hst] at h9
      simp only [List.count_cons_self] at h9
      have hu : s.usable = false ∧ s.inLoop = true := by
        by_cases h : s.usable = false ∧ s.inLoop = true
        · exact h
        · rw [if_neg h] at h9; omega
      have hk : k.count .afterHook = 0 := by rw [if_pos hu] at h9; omega
      split at hs
      · rename_i hf
        rw [h7.2 hu.2] at hf; cases hf
      · injection hs with hs; subst hs
        refine ⟨h1, h2, h3, h4, h5, ?_, ⟨?_, ?_⟩, ?_⟩
        · intro _ h
          have h : s.usable = true := h
          rw [hu.1] at h; cases h
        · intro h
          have h : s.usable = true := h
          rw [hu.1] at h; cases h
        · intro h; cases h
        · simpa using hk
    · rename_i r hst
      split at hs
      · rename_i hio
        rw [Bool.and_eq_true] at hio
        have hp := h6 hst hio.2
        rw [if_pos hp.1] at hs
        injection hs with hs; subst hs
        unfold readCallback
        split
        · exact hi0
        · exact inv_done hi0 hst hio.2 rfl rfl rfl rfl rfl rfl rfl rfl rfl
        · simp only
          split
          · exact inv_done hi0 hst hio.2 rfl rfl rfl rfl rfl rfl rfl rfl rfl
          · exact inv_done hi0 hst hio.2 rfl rfl rfl rfl rfl rfl rfl rfl rfl
      · cases hs
    · split at hs
      · injection hs with hs; subst hs
        exact inv_quiet (l := [.writeDone s.writer _ 0]) hi0 (fun t => (by simp [readDones])) rfl rfl rfl rfl rfl rfl rfl rfl (.inr rfl)
      · cases hs
    · cases hs

theorem reach_inv {s : St} (h : Reach Rules s) : Inv s := by
  induction h with
  | init => exact inv_init
  | step h hr hs ih => exact inv_step ih hr hs

/-- C40 (part): within the rules of use, a read handler is called at most once, and neither an uninitialised callback nor released memory is
used.
Missing for the full property: programs that do not start a new read in every read handler (`handler_called_again`), that let the event
loop run before the first read (`read_before_first_read`), or that release the port in its close hook (`hook_that_frees`). -/
theorem read_once_partial {s : St} (h : Reach Rules s) : s.ub = false ∧ ∀ t, readDones t s.log ≤ 1 := ⟨(reach_inv h).ub, (reach_inv h).le⟩

/-- C40 (part): within the rules, whenever the event loop runs there is a pending read; as soon as bytes have arrived its handler can be called
with at least one of them. -/
theorem read_answered_partial {s : St} (h : Reach Rules s) (hst : s.stack = []) (hu : s.usable = true) (hin : s.incoming ≠ []) (hsp : 0 < s.space) (n : Nat) :
    ∃ s' t d, readDones t s.log = 0 ∧ step s (.readable (.bytes (n + 1))) = some s' ∧ d ≠ [] ∧ d <+: s.incoming ∧
      s'.log = s.log ++ [.readDone t SUCCESS d] := by
  have hi := reach_inv h
  obtain ⟨hcb, h0⟩ := hi.idle hst hu
  have hlen : 0 < s.incoming.length := List.length_pos_iff.2 hin
  have hd0 : (s.incoming.take (min (n + 1) s.space)).length ≠ 0 := by rw [List.length_take]; omega
  refine ⟨readCallback s (.bytes (n + 1)), s.reader, s.incoming.take (min (n + 1) s.space), h0, ?_, ?_, List.take_prefix _ _, ?_⟩
  · unfold step
    rw [if_neg (by rw [hi.ub]; simp), hst]
    simp only
    rw [if_pos (by rw [(hi.shape.1 hu).1, hu]; rfl), if_pos hcb]
  · intro h; rw [h] at hd0; exact hd0 rfl
  · unfold readCallback
    simp only
    rw [if_neg hd0]
    rfl

/-- What the read handler is told for each result of read(2) on a port with these bytes waiting and this room in the read buffer;
`none`: it is not called. -/
def readSeen (incoming : List UInt8) (space : Nat) : ReadRes → Option (Err × List UInt8)
  | .again => Option.none
  | .error e => some (e, [])
  | .bytes n => if incoming.take (min n space) = [] then some (EOF, []) else some (SUCCESS, incoming.take (min n space))

/-- C40 (part): within the rules every result of read(2) is what the handler of the pending read is told – errors with their code and without
bytes – and EAGAIN tells it nothing. -/
theorem read_result_reported_partial {s : St} (h : Reach Rules s) {r : ReadRes} {s' : St} (hs : step s (.readable r) = some s') :
    ∃ t, readDones t s.log = 0 ∧ s.stack = [] ∧
      s'.log = s.log ++ ((readSeen s.incoming s.space r).map fun x => Obs.readDone t x.1 x.2).toList := by
  have hi := reach_inv h
  unfold step at hs
  rw [if_neg (by rw [hi.ub]; simp)] at hs
  rcases hst : s.stack with _ | ⟨i, k⟩ <;> rw [hst] at hs
  · simp only at hs
    split at hs
    · rename_i hu
      obtain ⟨hcb, h0⟩ := hi.idle hst (Bool.and_eq_true_iff.1 hu).2
      rw [if_pos hcb] at hs
      injection hs with hs; subst hs
      refine ⟨s.reader, h0, rfl, ?_⟩
      unfold readCallback
      cases r with
      | again => simp [readSeen]
      | error e => simp [readSeen, call]
      | bytes n =>
        simp only [readSeen]
        by_cases hd : (s.incoming.take (min n s.space)) = []
        · rw [if_pos (by rw [hd]; rfl), if_pos hd]; rfl
        · rw [if_neg (fun h => hd (List.length_eq_zero_iff.1 h)), if_neg hd]; rfl
    · cases hs
  · cases i <;> cases hs

theorem writeLoop_facts (chain : List (List UInt8)) (rs : List SendRes) (w : Nat) (out : List UInt8) :
    let r := writeLoop chain rs w out
    ∃ k, k ≤ chain.flatten.length ∧ r.1 = w + k ∧ r.2.1 = out ++ chain.flatten.take k ∧
      (∀ x, r.2.2 = some x → rs.head? = some x → k = 0) ∧ (∀ n, r.2.2 ≠ some (.sent n)) := by
  induction chain generalizing rs w out with
  | nil => exact ⟨0, by simp, rfl, by simp [writeLoop], fun x h => (by cases h), fun n h => (by cases h)⟩
  | cons e es ih =>
    unfold writeLoop
    cases rs with
    | nil =>
      simp only [List.headD_nil, Nat.min_self, ne_eq, not_true, if_false, List.tail_nil]
      obtain ⟨k, h1, h2, h3, h4, h5⟩ := ih [] (w + e.length) (out ++ e.take e.length)
      refine ⟨e.length + k, by rw [List.flatten_cons, List.length_append]; omega, by rw [h2]; omega, ?_, fun x _ h => (by cases h), h5⟩
      rw [h3]
      rw [List.flatten_cons, List.take_length_add_append, List.take_length, List.append_assoc]
    | cons r rs =>
      cases r with
      | sent n =>
        simp only [List.headD_cons, List.tail_cons]
        split
        · rename_i hne
          refine ⟨min n e.length, by rw [List.flatten_cons, List.length_append]; omega, rfl, ?_, fun x h => (by cases h), fun n h => (by cases h)⟩
          simp only [List.flatten_cons]
          rw [List.take_append_of_le_length (Nat.min_le_right _ _)]
        · rename_i hne
          have hne : min n e.length = e.length := Decidable.not_not.1 hne
          obtain ⟨k, h1, h2, h3, h4, h5⟩ := ih rs (w + min n e.length) (out ++ e.take (min n e.length))
          refine ⟨e.length + k, by rw [List.flatten_cons, List.length_append]; omega, by rw [h2, hne]; omega, ?_, ?_, h5⟩
          · rw [h3, hne]
            rw [List.flatten_cons, List.take_length_add_append, List.take_length, List.append_assoc]
          · intro x hx h
            simp only [List.head?_cons, Option.some.injEq] at h
            subst h
            exact absurd hx (h5 n)
      | again => exact ⟨0, by simp, rfl, by simp, fun _ _ _ => rfl, fun n h => (by cases h)⟩
      | error e => exact ⟨0, by simp, rfl, by simp, fun _ _ _ => rfl, fun n h => (by cases h)⟩

/-- C40: if a write is answered with success, the number of bytes that is reported is the number of bytes the operating system took, and these
are the first bytes of the chain. -/
theorem write_count_exact (s : St) (chain : List (List UInt8)) (rs : List SendRes) (ok : Bool) (t w : Nat)
    (h : .writeDone t SUCCESS w ∈ (streamWrite s chain rs ok).log) (hn : .writeDone t SUCCESS w ∉ s.log) :
    w ≤ chain.flatten.length ∧ (streamWrite s chain rs ok).outgoing = s.outgoing ++ chain.flatten.take w := by
  obtain ⟨k, h1, h2, h3, _, _⟩ := writeLoop_facts chain rs 0 []
  unfold streamWrite at *
  simp only at h ⊢
  split at h
  · rename_i hstop
    simp only [call] at h ⊢
    simp [hn] at h
    have : w = k := by rw [h.2, h2]; omega
    subst this
    exact ⟨h1, by rw [h3]; simp⟩
  · exfalso; split at h <;> simp [hn] at h
  · exfalso; simp [hn] at h
  · exact absurd h hn

/-- C40 (part): a write that is refused or has to wait because the first write(2) fails has not sent anything.
Missing for the full property: a failure behind the first element of the chain, see `partial_write_forgotten`. -/
theorem write_failed_partial (s : St) (chain : List (List UInt8)) (rs : List SendRes) (ok : Bool) (hf : rs.head? = some .again ∨ ∃ e, rs.head? = some (.error e)) :
    (streamWrite s chain rs ok).outgoing = s.outgoing := by
  have key : (writeLoop chain rs 0 []).2.1 = [] := by
    cases chain with
    | nil => rfl
    | cons e es =>
      unfold writeLoop
      cases rs with
      | nil => rcases hf with h | ⟨_, h⟩ <;> cases h
      | cons r rs =>
        rcases hf with h | ⟨_, h⟩ <;> (simp at h; subst h; rfl)
  unfold streamWrite
  simp only
  rw [key]
  split
  · simp [call]
  · split <;> simp
  · simp
  · simp

theorem writeLoop_error (pre : List (List UInt8)) (x : List UInt8) (post : List (List UInt8)) (e : Err) (w : Nat) (out : List UInt8) :
    (writeLoop (pre ++ x :: post) (pre.map (fun p => SendRes.sent p.length) ++ [.error e]) w out).2.2 = some (.error e) := by
  induction pre generalizing w out with
  | nil => rfl
  | cons p pre ih =>
    simp only [List.cons_append, List.map_cons, writeLoop, List.headD_cons, Nat.min_self, ne_eq, not_true_eq_false, if_false, List.tail_cons]
    exact ih _ _

/-- C40: an error of write(2) behind any number of elements written completely is returned to the caller, and no handler is called. -/
theorem write_error_returned (s : St) (pre : List (List UInt8)) (x : List UInt8) (post : List (List UInt8)) (e : Err) (ok : Bool) :
    (streamWrite s (pre ++ x :: post) (pre.map (fun p => SendRes.sent p.length) ++ [.error e]) ok).log = s.log ++ [.writeRefused s.nextWrite e] ∧
      (streamWrite s (pre ++ x :: post) (pre.map (fun p => SendRes.sent p.length) ++ [.error e]) ok).stack = s.stack := by
  have h := writeLoop_error pre x post e 0 []
  unfold streamWrite
  simp only [h]
  exact ⟨trivial, trivial⟩

example : (streamWrite initial [[1, 2], [3]] [.sent 2, .error (-5)] true).log = [.writeRefused 0 (-5)] := by decide

/-! ### Non-vacuity and negations -/

instance (s : St) (m : Move) : Decidable (Rules s m) := by
  cases m with
  | readable r => cases r <;> unfold Rules <;> infer_instance
  | _ => unfold Rules; infer_instance

def runRules : St → List Move → Option St
  | s, [] => some s
  | s, m :: ms => if Rules s m then (step s m).bind fun s => runRules s ms else none

theorem runRules_reach {s s' : St} {ms : List Move} (h : Reach Rules s) (hr : runRules s ms = some s') : Reach Rules s' := by
  induction ms generalizing s with
  | nil => injection hr with hr; subst hr; exact h
  | cons m ms ih =>
    unfold runRules at hr
    split at hr
    · rename_i hm
      cases hs : step s m with
      | none => rw [hs] at hr; cases hr
      | some s1 =>
        rw [hs] at hr
        exact ih (.step h hm hs) hr
    · cases hr

set_option maxRecDepth 20000 in
example : (runRules initial [.read 2, .write [[1, 2], [3]] [.sent 2, .sent 0] true, .leave, .leave, .arrive [7, 8, 9], .readable (.bytes 5), .read 4, .leave,
    .readable (.bytes 4), .close, .leave, .continue, .free, .leave]).map (fun s => (s.outgoing, s.log)) =
    some ([1, 2], [.readStarted 0, .writeStarted 0, .writeDone 0 SUCCESS 2, .arrived [7, 8, 9], .readDone 0 SUCCESS [7, 8], .readStarted 1,
      .readDone 1 SUCCESS [9], .closed, .hook]) := by decide

/-- A read handler that does not start another read is called again for the next bytes. -/
theorem handler_called_again : ∃ s, run initial [.read 10, .leave, .arrive [1], .readable (.bytes 1), .leave, .arrive [2], .readable (.bytes 1)] = some s ∧
    readDones 0 s.log = 2 ∧ s.nextRead = 1 := ⟨_, rfl, by decide, by decide⟩

/-- Bytes that arrive before the first read make the event loop call a callback that was never set. -/
theorem read_before_first_read : ∃ s, run initial [.leave, .arrive [1], .readable (.bytes 1)] = some s ∧ s.ub = true := ⟨_, rfl, by decide⟩

/-- A close hook that releases the port: the port is used afterwards. -/
theorem hook_that_frees : ∃ s, run initial [.close, .free, .leave, .continue] = some s ∧ s.ub = true := ⟨_, rfl, by decide⟩

/-- If a write(2) fails behind the first element of the chain, the bytes that were sent before are not reported: the call is refused, or the
handler is told that nothing was written. -/
theorem partial_write_forgotten :
    (∃ s, run initial [.write [[1], [2]] [.sent 1, .error (-5)] true] = some s ∧ s.log = [.writeRefused 0 (-5)] ∧ s.outgoing = [1]) ∧
    (∃ s, run initial [.read 1, .write [[1], [2]] [.sent 1, .again] true, .leave, .writable none] = some s ∧ .writeDone 0 SUCCESS 0 ∈ s.log ∧ s.outgoing = [1]) :=
  ⟨⟨_, rfl, by decide, by decide⟩, ⟨_, rfl, by decide, by decide⟩⟩

/-- read(2) from a port without data returns 0 (the port is opened with VMIN = VTIME = 0), which is reported as the end of the stream. -/
theorem no_data_is_end : ∃ s, run initial [.read 1, .leave, .readable (.bytes 1)] = some s ∧ .readDone 0 EOF [] ∈ s.log := ⟨_, rfl, by decide⟩

end Cio.Uart.Io
