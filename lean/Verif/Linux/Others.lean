import Verif.Linux.ObjectsProps
import Verif.Uart.Io
import Verif.Linux.Server
/-
Serial ports and listening sockets of the Linux port (models `Cio.Uart.Io` and `Cio.Linux.Server`) on the event loop (model `Cio.Epoll`), as `Cio.Linux.Objects` does for sockets
and timers (C93).
-/
namespace Cio.Linux
open Epoll (Op Obs Log added wantsRead wantsWrite allowed)

/-! ### Serial ports -/

/-- The calls uart.c makes to the event loop, for the notifier `n` of the port: `stream_write` (uart.c 147) if write(2) answers EAGAIN, and `cio_uart_close` behind its hook (349-350);
`u`: whether `epoll_ctl` succeeded (nobody asks). -/
def uartCalls (n : Nat) (u : Bool) (s : Uart.Io.St) : Uart.Io.Move → List Op
  | .write c rs ok => match (Uart.Io.writeLoop c rs 0 []).2.2 with | some .again => [.registerWrite n ok] | _ => []
  | .continue => if s.freed then [] else [.unregisterRead n u, .remove n]
  | _ => []

/-- The log of the loop is `l`, and what it records for notifier `n` since it was added is what a port did that is now in state `s`. -/
inductive UartAt (n : Nat) : Uart.Io.St → Log → Prop where
  /-- `cio_uart_init`, uart.c 317-325. -/
  | created (l : Log) : UartAt n Uart.Io.initial (l ++ [.op (.add n true), .op (.registerRead n true)])
  | elsewhere {s l} (o : Obs) : UartAt n s l → about o ≠ some n → UartAt n s (l ++ [o])
  | move {s s' l} (m : Uart.Io.Move) (u : Bool) : UartAt n s l → (∀ r, m ≠ .readable r) → (∀ e, m ≠ .writable e) → Uart.Io.step s m = some s' → s'.ub = false →
      UartAt n s' (l ++ (uartCalls n u s m).map .op)
  | readable {s s' l} (r : Uart.Io.ReadRes) : UartAt n s l → Uart.Io.step s (.readable r) = some s' → s'.ub = false → UartAt n s' (l ++ [.read n])
  | writable {s s' l} (e : Option Err) : UartAt n s l → Uart.Io.step s (.writable e) = some s' → UartAt n s' (l ++ [.write n e.isSome])

/-- The registrations agree with what the port believes; between the close hook and the end of `cio_uart_close` the port is closed but still in the loop. -/
structure UAgrees (s : Uart.Io.St) (r : Reg) : Prop where
  ub : s.ub = false
  loop : r.inLoop = s.inLoop
  open' : s.usable = true → s.inLoop = true
  hook : s.stack.count .afterHook = if s.usable = false ∧ s.inLoop = true then 1 else 0
  rd : s.inLoop = true → r.rd = true
  wr : s.inLoop = true → r.wr = s.regOut

theorem UAgrees.idle {s : Uart.Io.St} {r : Reg} (h : UAgrees s r) (hk : s.stack = []) : s.usable = s.inLoop := by
  have h1 := h.hook
  rw [hk] at h1
  cases hu : s.usable with
  | true => exact (h.open' hu).symm
  | false =>
    cases hl : s.inLoop with
    | false => rfl
    | true => rw [if_pos ⟨hu, hl⟩] at h1; cases h1

/-- A move that changes nothing the loop is concerned with. -/
theorem UAgrees.same {s t : Uart.Io.St} {r : Reg} (h : UAgrees s r) (e1 : t.ub = s.ub) (e2 : t.inLoop = s.inLoop) (e3 : t.usable = s.usable) (e4 : t.regOut = s.regOut)
    (e5 : t.stack.count .afterHook = s.stack.count .afterHook) : UAgrees t r :=
  ⟨by rw [e1]; exact h.ub, by rw [e2]; exact h.loop, by rw [e2, e3]; exact h.open', by rw [e5, e2, e3]; exact h.hook, by rw [e2]; exact h.rd, by rw [e2, e4]; exact h.wr⟩

theorem user_count (k : List Uart.Io.Item) : (Uart.Io.Item.user :: k).count .afterHook = k.count .afterHook := by simp

theorem readCallback_agrees {s : Uart.Io.St} {r : Reg} (h : UAgrees s r) (q : Uart.Io.ReadRes) : UAgrees (Uart.Io.readCallback s q) r := by
  unfold Uart.Io.readCallback
  cases q with
  | again => exact h
  | error e => exact h.same rfl rfl rfl rfl (user_count _)
  | bytes n =>
    dsimp only
    split <;> exact h.same rfl rfl rfl rfl (user_count _)

theorem uart_step_agrees {n : Nat} {u : Bool} {s s' : Uart.Io.St} {r : Reg} {m : Uart.Io.Move} (h : UAgrees s r) (hs : Uart.Io.step s m = some s') (hu : s'.ub = false) :
    ∃ r', (match m with | .writable _ => { r with wr := false } | _ => r).calls (uartCalls n u s m) = some r' ∧ UAgrees s' r' := by
  unfold Uart.Io.step at hs
  rw [if_neg (by rw [h.ub]; exact Bool.false_ne_true)] at hs
  cases m with
  | arrive d => injection hs with hs; subst hs; exact ⟨r, rfl, h.same rfl rfl rfl rfl rfl⟩
  | enter =>
    cases hk : s.stack with
    | cons i k => rw [hk] at hs; cases i <;> cases hs
    | nil => rw [hk] at hs; injection hs with hs; subst hs; exact ⟨r, rfl, h.same rfl rfl rfl rfl (by rw [hk]; rfl)⟩
  | leave =>
    cases hk : s.stack with
    | nil => rw [hk] at hs; cases hs
    | cons i k =>
      rw [hk] at hs
      cases i with
      | afterHook => cases hs
      | user => injection hs with hs; subst hs; exact ⟨r, rfl, h.same rfl rfl rfl rfl (by rw [hk, user_count])⟩
  | read sp =>
    cases hk : s.stack with
    | nil => rw [hk] at hs; cases hs
    | cons i k =>
      rw [hk] at hs
      cases i with
      | afterHook => cases hs
      | user =>
        dsimp only at hs
        by_cases ha : s.usable = true
        · rw [if_pos ha] at hs; injection hs with hs; subst hs; exact ⟨r, rfl, h.same rfl rfl rfl rfl rfl⟩
        · rw [if_neg ha] at hs; cases hs
  | write c rs ok =>
    cases hk : s.stack with
    | nil => rw [hk] at hs; cases hs
    | cons i k =>
      rw [hk] at hs
      cases i with
      | afterHook => cases hs
      | user =>
        dsimp only at hs
        by_cases ha : s.usable = true
        · rw [if_pos ha] at hs; injection hs with hs; subst hs
          have hl : r.inLoop = true := by rw [h.loop]; exact h.open' ha
          unfold Uart.Io.streamWrite uartCalls
          dsimp only
          generalize Uart.Io.writeLoop c rs 0 [] = z
          obtain ⟨w, out, stop⟩ := z
          dsimp only
          cases stop with
          | none => exact ⟨r, rfl, h.same rfl rfl rfl rfl (user_count _)⟩
          | some q =>
            cases q with
            | sent k => exact ⟨r, rfl, h.same rfl rfl rfl rfl rfl⟩
            | error e => exact ⟨r, rfl, h.same rfl rfl rfl rfl rfl⟩
            | again =>
              refine ⟨{ r with wr := true }, by simp [Reg.calls, Reg.after, hl], ?_⟩
              dsimp only
              split <;> exact ⟨h.ub, h.loop, h.open', h.hook, h.rd, fun _ => rfl⟩
        · rw [if_neg ha] at hs; cases hs
  | close =>
    cases hk : s.stack with
    | nil => rw [hk] at hs; cases hs
    | cons i k =>
      rw [hk] at hs
      cases i with
      | afterHook => cases hs
      | user =>
        dsimp only at hs
        by_cases ha : s.usable = true
        · rw [if_pos ha] at hs; injection hs with hs; subst hs
          have h0 := h.hook
          rw [if_neg (by rw [ha]; simp)] at h0
          refine ⟨r, rfl, h.ub, h.loop, (fun q => by cases q), ?_, h.rd, h.wr⟩
          show (Uart.Io.Item.user :: .afterHook :: s.stack).count .afterHook = _
          rw [user_count, List.count_cons_self, h0, if_pos ⟨rfl, h.open' ha⟩]
        · rw [if_neg ha] at hs; cases hs
  | free =>
    cases hk : s.stack with
    | nil => rw [hk] at hs; cases hs
    | cons i k =>
      rw [hk] at hs
      cases i with
      | afterHook => cases hs
      | user =>
        dsimp only at hs
        by_cases ha : s.usable = true
        · rw [if_pos ha] at hs; cases hs
        · rw [if_neg ha] at hs; injection hs with hs; subst hs; exact ⟨r, rfl, h.same rfl rfl rfl rfl (by rw [hk])⟩
  | «continue» =>
    cases hk : s.stack with
    | nil => rw [hk] at hs; cases hs
    | cons i k =>
      rw [hk] at hs
      cases i with
      | user => cases hs
      | afterHook =>
        dsimp only at hs
        by_cases hf : s.freed = true
        · rw [if_pos hf] at hs; injection hs with hs; subst hs; cases hu
        · rw [if_neg hf] at hs; injection hs with hs; subst hs
          have h0 := h.hook
          rw [hk, List.count_cons_self] at h0
          have hc : s.usable = false ∧ s.inLoop = true := by
            by_cases q : s.usable = false ∧ s.inLoop = true
            · exact q
            · rw [if_neg q] at h0; omega
          rw [if_pos hc] at h0
          have hl : r.inLoop = true := by rw [h.loop]; exact hc.2
          refine ⟨{ r with rd := false, inLoop := false }, by simp [uartCalls, hf, Reg.calls, Reg.after, hl], h.ub, rfl, (fun q => ?_), ?_, (fun q => by cases q), (fun q => by cases q)⟩
          · have : s.usable = true := q
            rw [hc.1] at this; cases this
          · rw [if_neg (fun q => by cases q.2)]; show k.count _ = 0; omega
  | readable q =>
    cases hk : s.stack with
    | cons i k => rw [hk] at hs; cases i <;> cases hs
    | nil =>
      rw [hk] at hs
      dsimp only at hs
      split at hs
      · split at hs
        · injection hs with hs; subst hs; exact ⟨r, rfl, readCallback_agrees h q⟩
        · injection hs with hs; subst hs; cases hu
      · cases hs
  | writable e =>
    cases hk : s.stack with
    | cons i k => rw [hk] at hs; cases i <;> cases hs
    | nil =>
      rw [hk] at hs
      dsimp only at hs
      split at hs
      · injection hs with hs; subst hs
        refine ⟨_, rfl, h.ub, h.loop, h.open', ?_, h.rd, fun _ => rfl⟩
        show (Uart.Io.Item.user :: s.stack).count .afterHook = _
        rw [user_count]; exact h.hook
      · cases hs

theorem uart_calls_about (n : Nat) (u : Bool) (s : Uart.Io.St) (m : Uart.Io.Move) : ∀ o ∈ uartCalls n u s m, isCall n o := by
  intro o ho
  cases m with
  | write c rs ok =>
    rw [uartCalls] at ho
    split at ho
    · rw [List.mem_singleton] at ho; subst ho; exact ⟨rfl, fun b q => by cases q⟩
    · cases ho
  | «continue» =>
    rw [uartCalls] at ho
    split at ho
    · cases ho
    · simp only [List.mem_cons, List.not_mem_nil, or_false] at ho
      rcases ho with rfl | rfl <;> exact ⟨rfl, fun b q => by cases q⟩
  | _ => cases ho

theorem uart_agrees {n : Nat} (hn : n ≠ 0) {s : Uart.Io.St} {l : Log} (h : UartAt n s l) : UAgrees s (reg n l) := by
  induction h with
  | created l =>
    rw [show l ++ [Obs.op (.add n true), .op (.registerRead n true)] = (l ++ [.op (.add n true)]) ++ [.op (.registerRead n true)] by simp]
    rw [reg_snoc_self n _ _ rfl, reg_snoc_self n _ _ rfl]
    exact ⟨rfl, rfl, fun _ => rfl, rfl, fun _ => rfl, fun _ => rfl⟩
  | elsewhere o _ ho ih => rw [reg_snoc_other n _ o ho]; exact ih
  | @move s s' l m u _ h1 h2 h3 h4 ih =>
    obtain ⟨r, h5, h6⟩ := uart_step_agrees (n := n) (u := u) ih h3 h4
    cases m with
    | readable q => exact absurd rfl (h1 q)
    | writable e => exact absurd rfl (h2 e)
    | _ => rw [(reg_calls hn _ (uart_calls_about n u s _) l r h5).2]; exact h6
  | @readable s s' l q _ h3 h4 ih =>
    obtain ⟨r, h5, h6⟩ := uart_step_agrees (n := n) (u := true) ih h3 h4
    injection h5 with h5
    rw [reg_snoc_self n l _ rfl]
    show UAgrees s' (reg n l)
    rw [show reg n l = r from h5]; exact h6
  | @writable s s' l e _ h3 ih =>
    have h4 : s'.ub = false := by
      unfold Uart.Io.step at h3
      rw [if_neg (by rw [ih.ub]; exact Bool.false_ne_true)] at h3
      cases hk : s.stack with
      | cons i k => rw [hk] at h3; cases i <;> cases h3
      | nil =>
        rw [hk] at h3
        dsimp only at h3
        split at h3
        · injection h3 with h3; subst h3; exact ih.ub
        · cases h3
    obtain ⟨r, h5, h6⟩ := uart_step_agrees (n := n) (u := true) ih h3 h4
    injection h5 with h5
    rw [reg_snoc_self n l _ rfl]
    rw [← h5] at h6; exact h6

/-- C93: whenever the loop calls the read callback of a serial port, the port is in the loop, and if no code of the user is running it is open: the callback its model provides for is
possible, and it is well-defined exactly if the user has started a read. -/
theorem uart_read_callback (env : Epoll.Env) (as : List Epoll.Act) {n : Nat} (hn : n ≠ 0) {s : Uart.Io.St} {p post : Log} (h : UartAt n s p)
    (hl : (Epoll.exec env Epoll.initial as).log = p ++ .read n :: post) :
    s.inLoop = true ∧ (s.stack = [] → s.usable = true ∧ ∀ r, ∃ s', Uart.Io.step s (.readable r) = some s' ∧ (s'.ub = false ↔ s.readCb = true)) := by
  obtain ⟨h1, -⟩ := Epoll.read_registered env as n p post hl
  have ha := uart_agrees hn h
  have h3 : s.inLoop = true := by rw [← ha.loop]; exact h1
  refine ⟨h3, fun hk => ?_⟩
  have h4 : s.usable = true := by rw [ha.idle hk]; exact h3
  refine ⟨h4, fun r => ?_⟩
  unfold Uart.Io.step
  rw [if_neg (by rw [ha.ub]; exact Bool.false_ne_true), hk]
  dsimp only
  rw [if_pos (by rw [h3, h4]; rfl)]
  by_cases hc : s.readCb = true
  · rw [if_pos hc]
    exact ⟨_, rfl, fun _ => hc, fun _ => (readCallback_agrees ha r).ub⟩
  · rw [if_neg hc]
    exact ⟨_, rfl, (fun q => by cases q), (fun q => absurd q hc)⟩

/-- C93: whenever the loop calls the write callback of a serial port, a write of an open port waits for it: the callback was set. -/
theorem uart_write_callback (env : Epoll.Env) (as : List Epoll.Act) {n : Nat} (hn : n ≠ 0) {s : Uart.Io.St} {p post : Log} {err : Bool} (h : UartAt n s p)
    (hl : (Epoll.exec env Epoll.initial as).log = p ++ .write n err :: post) :
    s.inLoop = true ∧ s.regOut = true ∧ (s.stack = [] → s.usable = true ∧ ∀ e, ∃ s', Uart.Io.step s (.writable e) = some s' ∧ s'.ub = false) := by
  obtain ⟨h1, h2⟩ := Epoll.write_registered env as n err p post hl
  have ha := uart_agrees hn h
  have h3 : s.inLoop = true := by rw [← ha.loop]; exact h1
  have h5 : s.regOut = true := by rw [← ha.wr h3]; exact h2
  refine ⟨h3, h5, fun hk => ?_⟩
  have h4 : s.usable = true := by rw [ha.idle hk]; exact h3
  refine ⟨h4, fun e => ?_⟩
  unfold Uart.Io.step
  rw [if_neg (by rw [ha.ub]; exact Bool.false_ne_true), hk]
  dsimp only
  rw [if_pos (by rw [h3, h4, h5]; rfl)]
  exact ⟨_, rfl, ha.ub⟩

/-- C93: all calls a serial port makes to the loop are for a notifier that is in the loop. -/
theorem uart_calls_legal {n : Nat} (hn : n ≠ 0) {s s' : Uart.Io.St} {l : Log} {m : Uart.Io.Move} {u : Bool} (h : UartAt n s l) (hs : Uart.Io.step s m = some s') (hu : s'.ub = false) :
    Legal l (uartCalls n u s m) := by
  obtain ⟨r, h5, -⟩ := uart_step_agrees (n := n) (u := u) (uart_agrees hn h) hs hu
  cases m with
  | writable e => trivial
  | _ => exact (reg_calls hn _ (uart_calls_about n u s _) l r h5).1

/-! ### Listening sockets -/

/-- The calls server_socket.c makes to the event loop, for the notifier `n` of the socket: `cio_server_socket_accept` (137-145) and `cio_server_socket_close` (150).  Simplified: a
socket that never accepted, or whose `add` failed, is removed although it is not in the loop; this call finds nothing to remove (`epoll_ctl` fails and nobody asks, no event of the
notifier is pending, and it is not the current one) and is left out. -/
def serverCalls (n : Nat) (s : Server.St) : Server.Move → List Op
  | .accept listen add reg =>
    if listen.isSome then []
    else if add.isSome then [.add n false]
    else [.add n true, .registerRead n reg.isNone]
  | .close => if s.inKernel then [.remove n] else []
  | _ => []

/-- The same for listening sockets.  Rule of use: `cio_server_socket_accept` is not called again for a socket that is accepting (it would answer EEXIST and make the socket deaf,
`Cio.Linux.Server`). -/
inductive ServerAt (n : Nat) : Server.St → Log → Prop where
  /-- `cio_server_socket_init`, server_socket.c 90-113, for an object that is not in the loop. -/
  | created (l : Log) : added n l = false → ServerAt n Server.initial l
  | elsewhere {s l} (o : Obs) : ServerAt n s l → about o ≠ some n → ServerAt n s (l ++ [o])
  | move {s s' l} (m : Server.Move) : ServerAt n s l → (∀ r, m ≠ .event r) → ((∃ a b c, m = .accept a b c) → s.inKernel = false) → Server.step s m = some s' →
      ServerAt n s' (l ++ (serverCalls n s m).map .op)
  | event {s s' l} (r : Server.Conn) : ServerAt n s l → Server.step s (.event r) = some s' → ServerAt n s' (l ++ [.read n])

structure SAgrees (s : Server.St) (r : Reg) : Prop where
  loop : r.inLoop = s.inKernel
  alive : s.inKernel = true → s.alive = true
  rd : s.inKernel = true → s.regIn = true ∧ r.rd = true
  wr : s.inKernel = true → r.wr = false

theorem SAgrees.same {s t : Server.St} {r : Reg} (h : SAgrees s r) (e1 : t.inKernel = s.inKernel) (e2 : t.alive = s.alive) (e3 : t.regIn = s.regIn) : SAgrees t r :=
  ⟨by rw [e1]; exact h.loop, by rw [e1, e2]; exact h.alive, by rw [e1, e3]; exact h.rd, by rw [e1]; exact h.wr⟩

theorem acceptCallback_agrees {s : Server.St} {r : Reg} (h : SAgrees s r) (c : Server.Conn) : SAgrees (Server.acceptCallback s c) r := by
  cases c <;> first | exact h | exact h.same rfl rfl rfl

theorem add_legal {n : Nat} (hn : n ≠ 0) {l : Log} (h : added n l = false) (b : Bool) : allowed l (.add n b) = true := by simp [allowed, hn, h]

/-- What a step does to the registrations; the calls are allowed. -/
theorem server_step_agrees {n : Nat} (hn : n ≠ 0) {s s' : Server.St} {l : Log} {m : Server.Move} (h : SAgrees s (reg n l)) (hm : (∃ a b c, m = .accept a b c) → s.inKernel = false)
    (hs : Server.step s m = some s') : Legal l (serverCalls n s m) ∧ SAgrees s' (reg n (l ++ (serverCalls n s m).map .op)) := by
  have hnil : ∀ t, SAgrees t (reg n l) → Legal l [] ∧ SAgrees t (reg n (l ++ ([] : List Op).map .op)) := fun t ht => ⟨trivial, by rw [List.map_nil, List.append_nil]; exact ht⟩
  unfold Server.step at hs
  by_cases hub : s.ub = true
  · rw [if_pos hub] at hs; cases hs
  rw [if_neg hub] at hs
  cases m with
  | enter =>
    cases hk : s.stack with
    | cons i k => rw [hk] at hs; cases i <;> cases hs
    | nil => rw [hk] at hs; injection hs with hs; subst hs; exact hnil _ (h.same rfl rfl rfl)
  | leave =>
    cases hk : s.stack with
    | nil => rw [hk] at hs; cases hs
    | cons i k =>
      rw [hk] at hs
      cases i <;> first | cases hs | skip
      exact hnil _ (h.same rfl rfl rfl)
  | event r =>
    cases hk : s.stack with
    | cons i k => rw [hk] at hs; cases i <;> cases hs
    | nil =>
      rw [hk] at hs
      dsimp only at hs
      split at hs
      · injection hs with hs; subst hs; exact hnil _ (acceptCallback_agrees h r)
      · cases hs
  | «continue» =>
    cases hk : s.stack with
    | nil => rw [hk] at hs; cases hs
    | cons i k =>
      rw [hk] at hs
      cases i with
      | user => cases hs
      | drop c => injection hs with hs; subst hs; exact hnil _ (h.same rfl rfl rfl)
      | dropAndFree c =>
        dsimp only at hs
        split at hs <;> (injection hs with hs; subst hs; exact hnil _ (h.same rfl rfl rfl))
  | close =>
    cases hk : s.stack with
    | nil => rw [hk] at hs; cases hs
    | cons i k =>
      rw [hk] at hs
      cases i <;> first | cases hs | skip
      dsimp only at hs
      by_cases ha : s.alive = true
      · rw [if_pos ha] at hs; injection hs with hs; subst hs
        unfold serverCalls
        by_cases hi : s.inKernel = true
        · rw [if_pos hi]
          have hl : added n l = true := by have := h.loop; rw [hi] at this; exact this
          refine ⟨⟨by simp [allowed, hn, hl], trivial⟩, ?_⟩
          rw [List.map_singleton, reg_snoc_self n l _ rfl]
          exact ⟨rfl, (fun q => by cases q), (fun q => by cases q), (fun q => by cases q)⟩
        · rw [if_neg hi]
          refine hnil _ ⟨?_, (fun q => by cases q), (fun q => by cases q), (fun q => by cases q)⟩
          rw [h.loop]; show s.inKernel = false; simpa using hi
      · rw [if_neg ha] at hs; cases hs
  | accept a b c =>
    have hi : s.inKernel = false := hm ⟨a, b, c, rfl⟩
    cases hk : s.stack with
    | nil => rw [hk] at hs; cases hs
    | cons i k =>
      rw [hk] at hs
      cases i <;> first | cases hs | skip
      dsimp only at hs
      by_cases ha : s.alive = true
      · rw [if_pos ha] at hs; injection hs with hs; subst hs
        have hl : added n l = false := by have := h.loop; rw [hi] at this; exact this
        unfold Server.accept serverCalls
        cases a with
        | some e => exact hnil _ (h.same rfl rfl rfl)
        | none =>
          dsimp only
          rw [if_neg (show ¬ (none : Option Err).isSome = true from Bool.false_ne_true)]
          cases b with
          | some e =>
            rw [if_pos (show (some e).isSome = true from rfl), if_neg (show ¬ s.inKernel = true by rw [hi]; exact Bool.false_ne_true)]
            refine ⟨⟨add_legal hn hl _, trivial⟩, ?_⟩
            rw [List.map_singleton, reg_snoc_self n l _ rfl]
            dsimp only
            have hx : ∀ q : Bool, q = true → s.inKernel = q → False := fun q h1 h2 => by rw [← h2, hi] at h1; cases h1
            exact ⟨hi.symm, (fun q => (hx _ q rfl).elim), (fun q => (hx _ q rfl).elim), (fun q => (hx _ q rfl).elim)⟩
          | none =>
            rw [if_neg (show ¬ (none : Option Err).isSome = true from Bool.false_ne_true), if_neg (show ¬ s.inKernel = true by rw [hi]; exact Bool.false_ne_true)]
            have hr : reg n (l ++ [Obs.op (.add n true), .op (.registerRead n c.isNone)]) = ⟨true, true, false⟩ := by
              rw [show l ++ [Obs.op (.add n true), .op (.registerRead n c.isNone)] = (l ++ [.op (.add n true)]) ++ [.op (.registerRead n c.isNone)] by simp]
              rw [reg_snoc_self n _ _ rfl, reg_snoc_self n _ _ rfl]; rfl
            have hl2 : added n (l ++ [.op (.add n true)]) = true := by
              have := congrArg Reg.inLoop (reg_snoc_self n l (.op (.add n true)) rfl); exact this
            refine ⟨⟨add_legal hn hl _, by simp [allowed, hn, hl2], trivial⟩, ?_⟩
            rw [List.map_cons, List.map_singleton, hr]
            dsimp only
            cases c <;> exact ⟨rfl, fun _ => ha, fun _ => ⟨rfl, rfl⟩, fun _ => rfl⟩
      · rw [if_neg ha] at hs; cases hs

theorem server_agrees {n : Nat} (hn : n ≠ 0) {s : Server.St} {l : Log} (h : ServerAt n s l) : SAgrees s (reg n l) := by
  induction h with
  | created l hl => exact ⟨hl, (fun q => by cases q), (fun q => by cases q), (fun q => by cases q)⟩
  | elsewhere o _ ho ih => rw [reg_snoc_other n _ o ho]; exact ih
  | move m _ h1 h2 h3 ih => exact (server_step_agrees hn ih h2 h3).2
  | @event s s' l r _ h3 ih =>
    have := (server_step_agrees hn ih (fun ⟨_, _, _, q⟩ => by cases q) h3).2
    rw [show serverCalls n s (.event r) = [] from rfl, List.map_nil, List.append_nil] at this
    rw [reg_snoc_self n l _ rfl]; exact this

/-- C93: whenever the loop calls the read callback of a listening socket, the socket has not been closed and accepts: the callback its model provides for is possible. -/
theorem server_read_callback (env : Epoll.Env) (as : List Epoll.Act) {n : Nat} (hn : n ≠ 0) {s : Server.St} {p post : Log} (h : ServerAt n s p)
    (hl : (Epoll.exec env Epoll.initial as).log = p ++ .read n :: post) :
    s.alive = true ∧ s.inKernel = true ∧ s.regIn = true ∧ (s.stack = [] → s.ub = false → ∀ r, ∃ s', Server.step s (.event r) = some s' ∧ s'.ub = false) := by
  obtain ⟨h1, -⟩ := Epoll.read_registered env as n p post hl
  have ha := server_agrees hn h
  have h3 : s.inKernel = true := by rw [← ha.loop]; exact h1
  have h4 := (ha.rd h3).1
  refine ⟨ha.alive h3, h3, h4, fun hk hu r => ?_⟩
  unfold Server.step
  rw [if_neg (by rw [hu]; exact Bool.false_ne_true), hk]
  dsimp only
  rw [if_pos (by rw [h3, h4]; rfl)]
  refine ⟨_, rfl, ?_⟩
  cases r <;> exact hu

/-- C93: the write callback of a listening socket (which is never set) is never called. -/
theorem server_no_write_callback (env : Epoll.Env) (as : List Epoll.Act) {n : Nat} (hn : n ≠ 0) {s : Server.St} {p post : Log} {err : Bool} (h : ServerAt n s p) :
    (Epoll.exec env Epoll.initial as).log ≠ p ++ .write n err :: post := by
  intro hl
  obtain ⟨h1, h2⟩ := Epoll.write_registered env as n err p post hl
  have ha := server_agrees hn h
  have h3 : s.inKernel = true := by rw [← ha.loop]; exact h1
  have h4 : wantsWrite n p = false := ha.wr h3
  rw [h4] at h2; cases h2

/-- C93: all calls a listening socket makes to the loop are allowed: it is added when it is not in the loop, and used and removed when it is. -/
theorem server_calls_legal {n : Nat} (hn : n ≠ 0) {s s' : Server.St} {l : Log} {m : Server.Move} (h : ServerAt n s l) (hm : (∃ a b c, m = .accept a b c) → s.inKernel = false)
    (hs : Server.step s m = some s') : Legal l (serverCalls n s m) := (server_step_agrees hn (server_agrees hn h) hm hs).1

/-! ### Non-vacuity -/

/-- A program with a listening socket (notifier 1) and a serial port (notifier 2) that are both readable. -/
example : let env : Epoll.Env := fun _ => []
    let as : List Epoll.Act := [.call (.add 1 true), .call (.registerRead 1 true), .call (.add 2 true), .call (.registerRead 2 true), .call (.registerWrite 2 true),
      .run [.events [(1, ⟨true, false, false⟩), (2, ⟨true, true, false⟩)]]]
    ∃ p post s, (Epoll.exec env Epoll.initial as).log = p ++ .read 1 :: post ∧ ServerAt 1 s p ∧ s.stack = [] ∧ s.ub = false ∧
      ∃ q t, (Epoll.exec env Epoll.initial as).log = q ++ [.read 2, .write 2 false] ∧ UartAt 2 t q ∧ t.stack = [] ∧ t.readCb = true ∧ t.regOut = true := by
  intro env as
  refine ⟨[.op (.add 1 true), .op (.registerRead 1 true), .op (.add 2 true), .op (.registerRead 2 true), .op (.registerWrite 2 true), .wait [(1, ⟨true, false, false⟩), (2, ⟨true, true, false⟩)]],
    [.read 2, .write 2 false], { inKernel := true, regIn := true, log := [.accepting] }, by decide, ?_, rfl, rfl,
    [.op (.add 1 true), .op (.registerRead 1 true), .op (.add 2 true), .op (.registerRead 2 true), .op (.registerWrite 2 true), .wait [(1, ⟨true, false, false⟩), (2, ⟨true, true, false⟩)], .read 1],
    { Uart.Io.initial with readCb := true, space := 8, nextRead := 1, regOut := true, nextWrite := 1, stack := [], log := [.readStarted 0, .writeStarted 0] }, by decide, ?_, rfl, rfl, rfl⟩
  · have h0 := ServerAt.created (n := 1) [] rfl
    have h1 := h0.move .enter (by simp) (by simp) (s' := { stack := [.user] }) rfl
    have h2 := h1.move (.accept none none none) (by simp) (fun _ => rfl) (s' := { inKernel := true, regIn := true, stack := [.user], log := [.accepting] }) rfl
    have h3 := h2.move .leave (by simp) (by simp) (s' := { inKernel := true, regIn := true, log := [.accepting] }) rfl
    exact (((h3.elsewhere (.op (.add 2 true)) (by decide)).elsewhere (.op (.registerRead 2 true)) (by decide)).elsewhere (.op (.registerWrite 2 true)) (by decide)).elsewhere
      (.wait [(1, ⟨true, false, false⟩), (2, ⟨true, true, false⟩)]) (by decide)
  · have h0 := UartAt.created (n := 2) [.op (.add 1 true), .op (.registerRead 1 true)]
    have h1 := h0.move (.read 8) true (by simp) (by simp) (s' := { Uart.Io.initial with readCb := true, space := 8, nextRead := 1, log := [.readStarted 0] }) rfl rfl
    have h2 := h1.move (.write [[1]] [.again] true) true (by simp) (by simp)
      (s' := { Uart.Io.initial with readCb := true, space := 8, nextRead := 1, regOut := true, nextWrite := 1, log := [.readStarted 0, .writeStarted 0] }) rfl rfl
    have h3 := h2.move .leave true (by simp) (by simp)
      (s' := { Uart.Io.initial with readCb := true, space := 8, nextRead := 1, regOut := true, nextWrite := 1, stack := [], log := [.readStarted 0, .writeStarted 0] }) rfl rfl
    exact (h3.elsewhere (.wait [(1, ⟨true, false, false⟩), (2, ⟨true, true, false⟩)]) (by decide)).elsewhere (.read 1) (by decide)

end Cio.Linux
