import Verif.Linux.Objects
/-
The event loop and the objects of the Linux port fit together (C93).
-/
namespace Cio.Linux
open Epoll (Op Obs Log added wantsRead wantsWrite allowed)

/-- What the registrations of `n` are after calls for `n`. -/
structure Reg where
  inLoop : Bool
  rd : Bool
  wr : Bool

def reg (n : Nat) (l : Log) : Reg := ⟨added n l, wantsRead n l, wantsWrite n l⟩

/-- The effect of an action on its notifier. -/
def Reg.after (r : Reg) : Obs → Reg
  | .op (.add _ ok) => ⟨ok, false, false⟩
  | .op (.registerRead _ _) => { r with rd := true }
  | .op (.unregisterRead _ _) => { r with rd := false }
  | .op (.registerWrite _ _) => { r with wr := true }
  | .op (.unregisterWrite _ _) => { r with wr := false }
  | .op (.remove _) => { r with inLoop := false }
  | .write _ _ => { r with wr := false }
  | _ => r

theorem reg_snoc_self (n : Nat) (l : Log) (o : Obs) (h : about o = some n) : reg n (l ++ [o]) = (reg n l).after o := by
  unfold reg
  rw [Epoll.added_snoc, Epoll.wantsRead_snoc, Epoll.wantsWrite_snoc]
  cases o with
  | wait b => cases h
  | read m => injection h with h; subst h; rfl
  | write m e => injection h with h; subst h; simp [Reg.after]
  | op o =>
    cases o with
    | cancel => cases h
    | _ => injection h with h; subst h; simp [Reg.after]

theorem reg_snoc_other (n : Nat) (l : Log) (o : Obs) (h : about o ≠ some n) : reg n (l ++ [o]) = reg n l := by
  unfold reg
  rw [Epoll.added_snoc, Epoll.wantsRead_snoc, Epoll.wantsWrite_snoc]
  cases o with
  | wait b => rfl
  | read m => rfl
  | write m e => have : m ≠ n := fun q => h (by rw [q]; rfl); simp [this]
  | op o =>
    cases o with
    | cancel => rfl
    | _ m => have : m ≠ n := (fun q => h (by rw [q]; rfl)); simp [this]

/-- The registrations agree with what the socket believes. -/
structure Agrees (s : Socket.St) (r : Reg) : Prop where
  ub : s.ub = false
  loop : r.inLoop = s.inLoop
  alive : s.alive = s.inLoop
  rd : s.inLoop = true → r.rd = s.regIn
  wr : s.inLoop = true → r.wr = s.regOut

/-- The registrations after some calls; `none` if one of them is not allowed. -/
def Reg.calls : Reg → List Op → Option Reg
  | r, [] => some r
  | r, o :: os => if r.inLoop then (r.after (.op o)).calls os else none

/-- Each of these calls is allowed when it is made. -/
def Legal : Log → List Op → Prop
  | _, [] => True
  | l, o :: os => allowed l o = true ∧ Legal (l ++ [.op o]) os

/-- A call about `n` that is not `add`. -/
def isCall (n : Nat) (o : Op) : Prop := about (.op o) = some n ∧ ∀ b, o ≠ .add n b

theorem allowed_iff {n : Nat} (hn : n ≠ 0) {o : Op} (ho : isCall n o) (l : Log) : allowed l o = (reg n l).inLoop := by
  obtain ⟨h1, h2⟩ := ho
  cases o with
  | cancel => cases h1
  | add m b => injection h1 with h1; subst h1; exact absurd rfl (h2 b)
  | _ => injection h1 with h1; subst h1; simp [allowed, hn, reg]

theorem reg_calls {n : Nat} (hn : n ≠ 0) (os : List Op) (h : ∀ o ∈ os, isCall n o) : ∀ (l : Log) (r : Reg), (reg n l).calls os = some r →
    Legal l os ∧ reg n (l ++ os.map .op) = r := by
  induction os with
  | nil => intro l r hr; injection hr with hr; exact ⟨trivial, by rw [List.map_nil, List.append_nil]; exact hr⟩
  | cons o os ih =>
    intro l r hr
    unfold Reg.calls at hr
    have ho := h o List.mem_cons_self
    by_cases hl : (reg n l).inLoop = true
    · rw [if_pos hl, ← reg_snoc_self n l (.op o) ho.1] at hr
      obtain ⟨h1, h2⟩ := ih (fun o ho => h o (List.mem_cons_of_mem _ ho)) _ _ hr
      refine ⟨⟨by rw [allowed_iff hn ho]; exact hl, h1⟩, ?_⟩
      rw [← h2]; simp
    · rw [if_neg hl] at hr; cases hr

theorem calls_about (n : Nat) (u : Bool) (s : Socket.St) (m : Socket.Move) : ∀ o ∈ socketCalls n u s m, isCall n o := by
  intro o ho
  have hc : ∀ o ∈ closing n u, isCall n o := by
    intro o ho
    simp only [closing, List.mem_cons, List.not_mem_nil, or_false] at ho
    rcases ho with rfl | rfl <;> exact ⟨rfl, fun b q => by cases q⟩
  cases m with
  | read sp ok => simp only [socketCalls, List.mem_singleton] at ho; subst ho; exact ⟨rfl, fun b q => by cases q⟩
  | write d r ok => cases r <;> simp [socketCalls] at ho; subst ho; exact ⟨rfl, fun b q => by cases q⟩
  | connect r ok => cases r <;> simp [socketCalls] at ho; subst ho; exact ⟨rfl, fun b q => by cases q⟩
  | close a b c d =>
    rw [socketCalls] at ho
    split at ho
    · exact hc o ho
    · rcases List.mem_cons.mp ho with rfl | ho
      · exact ⟨rfl, fun b q => by cases q⟩
      · split at ho
        · cases ho
        · exact hc o ho
  | readable a r =>
    rw [socketCalls] at ho
    rcases List.mem_cons.mp ho with rfl | ho
    · exact ⟨rfl, fun b q => by cases q⟩
    · split at ho
      · exact hc o ho
      · cases ho
  | timeout => exact hc o ho
  | «continue» ok =>
    rw [socketCalls] at ho
    rcases List.mem_cons.mp ho with rfl | ho
    · exact ⟨rfl, fun b q => by cases q⟩
    · split at ho
      · cases ho
      · exact hc o ho
  | _ => simp [socketCalls] at ho

/-- The state behind `close_socket`. -/
theorem closeSocket_eq {s : Socket.St} (h : (Socket.closeSocket s).ub = false) (hu : s.ub = false) : s.alive = true ∧ (Socket.closeSocket s).inLoop = false ∧
    (Socket.closeSocket s).alive = false := by
  unfold Socket.closeSocket Socket.guarded at h ⊢
  by_cases ha : s.alive = true
  · rw [if_pos ha]; exact ⟨ha, rfl, rfl⟩
  · rw [if_neg ha] at h; cases h

theorem agrees_closed {s : Socket.St} {r : Reg} (h1 : s.ub = false) (h2 : r.inLoop = false) (h3 : s.inLoop = false) (h4 : s.alive = false) : Agrees s r := by
  refine ⟨h1, by rw [h2, h3], by rw [h3, h4], fun q => ?_, fun q => ?_⟩ <;> rw [h3] at q <;> cases q

/-- `close_socket` for a socket that is in the loop. -/
theorem close_agrees {s : Socket.St} {r : Reg} {n : Nat} {u : Bool} (ha : s.alive = true) (hr : r.inLoop = true) (hu : s.ub = false) :
    ∃ r', r.calls (closing n u) = some r' ∧ Agrees (Socket.closeSocket s) r' := by
  refine ⟨{ r with rd := false, inLoop := false }, ?_, ?_⟩
  · simp [closing, Reg.calls, Reg.after, hr]
  · unfold Socket.closeSocket Socket.guarded
    rw [if_pos ha]
    exact agrees_closed hu rfl rfl rfl

/-- The registrations agree with the socket behind each of its functions, and all the calls it makes are allowed. -/
theorem step_agrees {n : Nat} {u : Bool} {s s' : Socket.St} {r : Reg} {m : Socket.Move} (h : Agrees s r) (hs : Socket.step s m = some s') (hu : s'.ub = false) :
    ∃ r', (match m with | .writable _ => { r with wr := false } | _ => r).calls (socketCalls n u s m) = some r' ∧ Agrees s' r' := by
  unfold Socket.step at hs
  rw [if_neg (by rw [h.ub]; exact Bool.false_ne_true)] at hs
  have hsame : ∀ t : Socket.St, t.ub = s.ub → t.inLoop = s.inLoop → t.alive = s.alive → t.regIn = s.regIn → t.regOut = s.regOut → Agrees t r := fun t e1 e2 e3 e4 e5 =>
    ⟨by rw [e1]; exact h.ub, by rw [e2]; exact h.loop, by rw [e3, e2]; exact h.alive, fun q => by rw [e4]; exact h.rd (by rw [← e2]; exact q), fun q => by rw [e5]; exact h.wr (by rw [← e2]; exact q)⟩
  have hal : s.alive = true → r.inLoop = true := fun q => by rw [h.loop, ← h.alive]; exact q
  cases m with
  | peerSends d =>
    dsimp only at hs
    split at hs
    · cases hs
    · injection hs with hs; subst hs; exact ⟨r, rfl, hsame _ rfl rfl rfl rfl rfl⟩
  | peerCloses => injection hs with hs; subst hs; exact ⟨r, rfl, hsame _ rfl rfl rfl rfl rfl⟩
  | enter =>
    cases hk : s.stack with
    | nil => rw [hk] at hs; injection hs with hs; subst hs; exact ⟨r, rfl, hsame _ rfl rfl rfl rfl rfl⟩
    | cons i k => rw [hk] at hs; cases i <;> cases hs
  | leave =>
    cases hk : s.stack with
    | nil => rw [hk] at hs; cases hs
    | cons i k =>
      rw [hk] at hs
      cases i with
      | user => injection hs with hs; subst hs; exact ⟨r, rfl, hsame _ rfl rfl rfl rfl rfl⟩
      | afterArm => cases hs
  | read sp ok =>
    cases hk : s.stack with
    | nil => rw [hk] at hs; cases hs
    | cons i k =>
      rw [hk] at hs
      cases i with
      | afterArm => cases hs
      | user =>
        dsimp only at hs
        by_cases ha : s.alive = true
        · rw [if_pos ha] at hs
          injection hs with hs
          have hl := hal ha
          refine ⟨{ r with rd := true }, by simp [socketCalls, Reg.calls, Reg.after, hl], ?_⟩
          subst hs
          unfold Socket.streamRead
          dsimp only
          split <;> exact ⟨h.ub, h.loop, h.alive, fun _ => rfl, fun q => h.wr q⟩
        · rw [if_neg ha] at hs; cases hs
  | write d a ok =>
    cases hk : s.stack with
    | nil => rw [hk] at hs; cases hs
    | cons i k =>
      rw [hk] at hs
      cases i with
      | afterArm => cases hs
      | user =>
        dsimp only at hs
        by_cases ha : s.alive = true
        · rw [if_pos ha] at hs
          injection hs with hs
          have hl := hal ha
          subst hs
          unfold Socket.streamWrite
          dsimp only
          cases a with
          | sent c => exact ⟨r, rfl, hsame _ rfl rfl rfl rfl rfl⟩
          | error e => exact ⟨r, rfl, hsame _ rfl rfl rfl rfl rfl⟩
          | again =>
            refine ⟨{ r with wr := true }, by simp [socketCalls, Reg.calls, Reg.after, hl], ?_⟩
            dsimp only
            split <;> exact ⟨h.ub, h.loop, h.alive, fun q => h.rd q, fun _ => rfl⟩
        · rw [if_neg ha] at hs; cases hs
  | connect a ok =>
    cases hk : s.stack with
    | nil => rw [hk] at hs; cases hs
    | cons i k =>
      rw [hk] at hs
      cases i with
      | afterArm => cases hs
      | user =>
        dsimp only at hs
        by_cases ha : s.alive = true
        · rw [if_pos ha] at hs
          injection hs with hs
          have hl := hal ha
          subst hs
          unfold Socket.connect
          cases a with
          | done => exact ⟨r, rfl, hsame _ rfl rfl rfl rfl rfl⟩
          | error e => exact ⟨r, rfl, hsame _ rfl rfl rfl rfl rfl⟩
          | inProgress =>
            refine ⟨{ r with wr := true }, by simp [socketCalls, Reg.calls, Reg.after, hl], ?_⟩
            dsimp only
            split <;> exact ⟨h.ub, h.loop, h.alive, fun q => h.rd q, fun _ => rfl⟩
        · rw [if_neg ha] at hs; cases hs
  | close a b c d =>
    cases hk : s.stack with
    | nil => rw [hk] at hs; cases hs
    | cons i k =>
      rw [hk] at hs
      cases i with
      | afterArm => cases hs
      | user =>
        dsimp only at hs
        by_cases ha : s.alive = true
        · rw [if_pos ha] at hs
          injection hs with hs
          have hl := hal ha
          subst hs
          rw [socketCalls]
          unfold Socket.close
          dsimp only
          by_cases hp : s.peerClosed = true
          · rw [if_pos hp, if_pos (by rw [hp]; rfl)]
            exact close_agrees ha hl h.ub
          · rw [if_neg hp]
            by_cases ht : s.closeTimeout = true
            · rw [if_pos ht]
              unfold Socket.shutdownSocket Socket.resetConnection
              cases a with
              | false =>
                rw [if_pos (by simp)]
                exact close_agrees ha hl h.ub
              | true =>
                cases b with
                | false =>
                  rw [if_pos (by simp)]
                  exact close_agrees ha hl h.ub
                | true =>
                  cases c with
                  | true =>
                    rw [if_pos (by simp)]
                    exact close_agrees ha hl h.ub
                  | false =>
                    rw [if_neg (by simp [hp, ht])]
                    simp only [Bool.not_true, Bool.false_eq_true, if_false]
                    unfold Socket.shutdownTail Socket.guarded
                    dsimp only
                    rw [if_pos ha]
                    unfold Reg.calls
                    rw [if_pos hl]
                    cases d with
                    | true => exact ⟨_, rfl, h.ub, h.loop, h.alive, fun _ => rfl, fun q => h.wr q⟩
                    | false =>
                      simp only [Bool.false_eq_true, if_false]
                      exact close_agrees ha (by exact hl) h.ub
            · rw [if_neg ht, if_pos (by simp [ht])]
              exact close_agrees ha hl h.ub
        · rw [if_neg ha] at hs; cases hs
  | readable a q =>
    cases hk : s.stack with
    | cons i k => rw [hk] at hs; cases i <;> cases hs
    | nil =>
      rw [hk] at hs
      dsimp only at hs
      by_cases hl : (s.inLoop && s.regIn) = true
      · rw [if_pos hl] at hs
        obtain ⟨hl1, hl2⟩ := Bool.and_eq_true_iff.mp hl
        have hrl : r.inLoop = true := by rw [h.loop]; exact hl1
        have ha : s.alive = true := by rw [h.alive]; exact hl1
        rw [socketCalls]
        unfold Reg.calls
        dsimp only
        rw [if_pos hrl]
        have hunreg : ∀ t : Socket.St, t.ub = s.ub → t.inLoop = s.inLoop → t.alive = s.alive → t.regIn = false → t.regOut = s.regOut →
            Agrees t (r.after (.op (.unregisterRead n a))) := fun t e1 e2 e3 e4 e5 =>
          ⟨by rw [e1]; exact h.ub, by rw [e2]; exact h.loop, by rw [e3, e2]; exact h.alive, fun _ => by rw [e4]; rfl, fun q => by rw [e5]; exact h.wr (by rw [← e2]; exact q)⟩
        cases hcb : s.readCb with
        | none => rw [hcb] at hs; injection hs with hs; subst hs; cases hu
        | read =>
          rw [hcb] at hs
          rw [if_neg (by simp)]
          cases hpr : s.pendRead with
          | none => rw [hpr] at hs; injection hs with hs; subst hs; cases hu
          | some v =>
            obtain ⟨t, sp⟩ := v
            rw [hpr] at hs
            injection hs with hs
            subst hs
            refine ⟨_, rfl, ?_⟩
            unfold Socket.readCallback Socket.call
            dsimp only
            split
            · exact hunreg _ rfl rfl rfl rfl rfl
            · split
              · exact hunreg _ rfl rfl rfl rfl rfl
              · exact hunreg _ rfl rfl rfl rfl rfl
              · split <;> exact hunreg _ rfl rfl rfl rfl rfl
        | drain =>
          rw [hcb] at hs
          injection hs with hs
          subst hs
          unfold Socket.drainCallback Socket.cancelAndReset Socket.resetConnection drained
          dsimp only
          cases a with
          | false =>
            rw [if_pos (by simp), if_pos (by simp)]
            exact close_agrees ha (by exact hrl) h.ub
          | true =>
            rw [if_neg (c := (!true) = true) (by simp)]
            generalize he : Socket.osRead _ _ q = z
            cases z with
            | again =>
              simp only [Bool.not_true, Bool.false_or, decide_true, Bool.and_false, Bool.false_eq_true, if_false]
              exact ⟨_, rfl, hunreg _ rfl rfl rfl rfl rfl⟩
            | error e =>
              rw [if_pos (by simp)]
              exact close_agrees ha (by exact hrl) h.ub
            | bytes c =>
              dsimp only
              by_cases hd : (Socket.taken { s with regIn := false } Socket.readCloseBufferSize c).length = 0
              · rw [if_pos hd, if_pos (by simp [hd])]
                exact close_agrees ha (by exact hrl) h.ub
              · rw [if_neg hd, if_neg (by simp only [decide_eq_false hd]; simp)]
                exact ⟨_, rfl, hunreg _ rfl rfl rfl rfl rfl⟩
      · rw [if_neg hl] at hs; cases hs
  | writable e =>
    cases hk : s.stack with
    | cons i k => rw [hk] at hs; cases i <;> cases hs
    | nil =>
      rw [hk] at hs
      dsimp only at hs
      by_cases hl : (s.inLoop && s.regOut) = true
      · rw [if_pos hl] at hs
        injection hs with hs
        refine ⟨_, rfl, ?_⟩
        subst hs
        unfold Socket.writeCallback Socket.call at hu ⊢
        dsimp only at hu ⊢
        split
        · exact ⟨h.ub, h.loop, h.alive, fun q => h.rd q, fun _ => rfl⟩
        · exact ⟨h.ub, h.loop, h.alive, fun q => h.rd q, fun _ => rfl⟩
        · rename_i hw; rw [hw] at hu; cases hu
      · rw [if_neg hl] at hs; cases hs
  | timeout =>
    cases hk : s.stack with
    | cons i k => rw [hk] at hs; cases i <;> cases hs
    | nil =>
      rw [hk] at hs
      dsimp only at hs
      split at hs
      · injection hs with hs
        subst hs
        have ha := (closeSocket_eq (s := { s with timerArmed := false, stack := [] }) hu h.ub).1
        exact close_agrees ha (hal ha) h.ub
      · cases hs
  | «continue» ok =>
    cases hk : s.stack with
    | nil => rw [hk] at hs; cases hs
    | cons i k =>
      rw [hk] at hs
      cases i with
      | user => cases hs
      | afterArm =>
        injection hs with hs
        subst hs
        unfold Socket.shutdownTail Socket.guarded Socket.resetConnection at hu ⊢
        rw [socketCalls]
        dsimp only at hu ⊢
        by_cases ha : s.alive = true
        · rw [if_pos ha] at hu ⊢
          have hl := hal ha
          unfold Reg.calls
          rw [if_pos hl]
          cases ok with
          | true => exact ⟨_, rfl, h.ub, h.loop, h.alive, fun _ => rfl, fun q => h.wr q⟩
          | false =>
            simp only [Bool.false_eq_true, if_false]
            exact close_agrees ha (by exact hl) h.ub
        · rw [if_neg ha] at hu; cases hu

theorem calls_nil (r : Reg) : r.calls [] = some r := rfl

/-- The loop and the socket agree on the registrations, at any time. -/
theorem socket_agrees {n : Nat} (hn : n ≠ 0) {s : Socket.St} {l : Log} (h : SocketAt n s l) : Agrees s (reg n l) := by
  induction h with
  | created c l =>
    rw [reg_snoc_self n l _ rfl]
    exact ⟨rfl, rfl, rfl, fun _ => rfl, fun _ => rfl⟩
  | elsewhere o _ ho ih => rw [reg_snoc_other n _ o ho]; exact ih
  | @move s s' l m u _ h1 h2 h3 h4 ih =>
    obtain ⟨r, h5, h6⟩ := step_agrees (n := n) (u := u) ih h3 h4
    have h5 : (reg n l).calls (socketCalls n u s m) = some r := by
      cases m with
      | writable e => exact absurd rfl (h2 e)
      | _ => exact h5
    rw [(reg_calls hn _ (calls_about n u s m) l r h5).2]
    exact h6
  | @readable s s' l a q u _ h3 h4 ih =>
    obtain ⟨r, h5, h6⟩ := step_agrees (n := n) (u := u) ih h3 h4
    have h7 : reg n (l ++ [.read n]) = reg n l := reg_snoc_self n l _ rfl
    rw [show l ++ Obs.read n :: (socketCalls n u s (.readable a q)).map Obs.op = (l ++ [.read n]) ++ (socketCalls n u s (.readable a q)).map Obs.op by simp]
    have h8 := (reg_calls hn _ (calls_about n u s (.readable a q)) (l ++ [Obs.read n]) r (by rw [h7]; exact h5)).2
    rw [h8]
    exact h6
  | @writable s s' l e _ h3 h4 ih =>
    obtain ⟨r, h5, h6⟩ := step_agrees (n := n) (u := false) ih h3 h4
    injection h5 with h5
    rw [reg_snoc_self n l _ rfl]
    rw [← h5] at h6
    exact h6

/-- C93: whenever the loop calls the read callback of a socket, the socket is not closed and has asked for it: the callback the model of the socket provides for is possible,
whatever `read` and `epoll_ctl` answer. -/
theorem socket_read_callback (env : Epoll.Env) (as : List Epoll.Act) {n : Nat} (hn : n ≠ 0) {s : Socket.St} {p post : Log} (h : SocketAt n s p)
    (hl : (Epoll.exec env Epoll.initial as).log = p ++ .read n :: post) :
    s.alive = true ∧ s.inLoop = true ∧ s.regIn = true ∧ (s.stack = [] → ∀ unregOk r, ∃ s', Socket.step s (.readable unregOk r) = some s') := by
  obtain ⟨h1, h2⟩ := Epoll.read_registered env as n p post hl
  have ha := socket_agrees hn h
  have h3 : s.inLoop = true := by rw [← ha.loop]; exact h1
  have h4 : s.regIn = true := by rw [← ha.rd h3]; exact h2
  refine ⟨by rw [ha.alive]; exact h3, h3, h4, fun hk a r => ?_⟩
  unfold Socket.step
  rw [if_neg (by rw [ha.ub]; exact Bool.false_ne_true), hk]
  dsimp only
  rw [if_pos (by rw [h3, h4]; rfl)]
  split <;> exact ⟨_, rfl⟩

/-- C93: the same for write callbacks. -/
theorem socket_write_callback (env : Epoll.Env) (as : List Epoll.Act) {n : Nat} (hn : n ≠ 0) {s : Socket.St} {p post : Log} {err : Bool} (h : SocketAt n s p)
    (hl : (Epoll.exec env Epoll.initial as).log = p ++ .write n err :: post) :
    s.alive = true ∧ s.inLoop = true ∧ s.regOut = true ∧ (s.stack = [] → ∀ e, ∃ s', Socket.step s (.writable e) = some s') := by
  obtain ⟨h1, h2⟩ := Epoll.write_registered env as n err p post hl
  have ha := socket_agrees hn h
  have h3 : s.inLoop = true := by rw [← ha.loop]; exact h1
  have h4 : s.regOut = true := by rw [← ha.wr h3]; exact h2
  refine ⟨by rw [ha.alive]; exact h3, h3, h4, fun hk a => ?_⟩
  unfold Socket.step
  rw [if_neg (by rw [ha.ub]; exact Bool.false_ne_true), hk]
  dsimp only
  rw [if_pos (by rw [h3, h4]; rfl)]
  exact ⟨_, rfl⟩

/-- C93: all calls a socket makes to the loop are for a notifier that is in the loop. -/
theorem socket_calls_legal {n : Nat} (hn : n ≠ 0) {s s' : Socket.St} {l : Log} {m : Socket.Move} {u : Bool} (h : SocketAt n s l) (hs : Socket.step s m = some s') (hu : s'.ub = false) :
    Legal (match m with | .readable _ _ => l ++ [.read n] | .writable e => l ++ [.write n e.isSome] | _ => l) (socketCalls n u s m) := by
  have ha := socket_agrees hn h
  obtain ⟨r, h5, -⟩ := step_agrees (n := n) (u := u) ha hs hu
  cases m with
  | readable a q =>
    exact (reg_calls hn _ (calls_about n u s _) _ r (by rw [reg_snoc_self n l _ rfl]; exact h5)).1
  | writable e => trivial
  | _ => exact (reg_calls hn _ (calls_about n u s _) l r h5).1

/-! ### Timers -/

/-- The registrations agree with what the timer believes. -/
structure TAgrees (s : Timer.St) (r : Reg) : Prop where
  loop : r.inLoop = s.inLoop
  rd : s.inLoop = true → r.rd = true
  wr : r.wr = false

theorem cancelCore_loop (s : Timer.St) (ok : Bool) : (Timer.cancelCore s ok).1.inLoop = s.inLoop := by
  unfold Timer.cancelCore
  split
  · rfl
  · split <;> rfl

theorem timerRead_loop (s : Timer.St) (f : Option Err) : (Timer.timerRead s f).inLoop = s.inLoop := by
  unfold Timer.timerRead
  split
  · split <;> rfl
  · split
    · split <;> rfl
    · rfl

theorem expire_loop {s s' : Timer.St} (h : Timer.expire s = some s') : s'.inLoop = s.inLoop := by
  unfold Timer.expire at h
  split at h
  · injection h with h; subst h; rfl
  · cases h

theorem arm_loop (s : Timer.St) (t : BitVec 64) (ok soon : Bool) : (Timer.arm s t ok soon).inLoop = s.inLoop := by
  unfold Timer.arm
  dsimp only
  split
  · rw [timerRead_loop]
    cases soon with
    | false => rfl
    | true =>
      rw [if_pos rfl]
      generalize hz : Timer.expire _ = z
      cases z with
      | none => rfl
      | some z => rw [Option.getD_some]; exact (expire_loop hz).trans rfl
  · rfl

theorem timer_step_loop {s s' : Timer.St} {m : Timer.Move} (h : Timer.step s m = some s') : s'.inLoop = (match m with | .close _ => false | _ => s.inLoop) ∧
    (∀ ok, m = .close ok → s.inLoop = true) ∧ ∀ f, m = .event f → s.inLoop = true := by
  unfold Timer.step at h
  split at h
  · cases h
  · split at h
    · exact ⟨expire_loop h, fun _ q => (nomatch q), fun _ q => (nomatch q)⟩
    · injection h with h; subst h; exact ⟨rfl, fun _ q => (nomatch q), fun _ q => (nomatch q)⟩
    · split at h
      · rename_i hl
        injection h with h; subst h; exact ⟨timerRead_loop _ _, fun _ q => (nomatch q), fun _ _ => hl⟩
      · cases h
    · injection h with h; subst h; exact ⟨rfl, fun _ q => (nomatch q), fun _ q => (nomatch q)⟩
    · split at h
      · injection h with h; subst h; exact ⟨arm_loop _ _ _ _, fun _ q => (nomatch q), fun _ q => (nomatch q)⟩
      · cases h
    · split at h
      · injection h with h; subst h
        refine ⟨?_, fun _ q => (nomatch q), fun _ q => (nomatch q)⟩
        unfold Timer.cancel
        dsimp only
        rw [cancelCore_loop]
      · cases h
    · split at h
      · rename_i hl
        injection h with h; subst h
        refine ⟨?_, fun _ _ => (Bool.and_eq_true_iff.mp hl).2, fun _ q => (nomatch q)⟩
        unfold Timer.close
        dsimp only
        rw [cancelCore_loop]
      · cases h
    · injection h with h; subst h
      refine ⟨?_, fun _ q => (nomatch q), fun _ q => (nomatch q)⟩
      split <;> rfl
    · injection h with h; subst h
      refine ⟨?_, fun _ q => (nomatch q), fun _ q => (nomatch q)⟩
      split <;> rfl
    · cases h

theorem timer_agrees {n : Nat} {s : Timer.St} {l : Log} (h : TimerAt n s l) : TAgrees s (reg n l) := by
  induction h with
  | created l =>
    rw [show l ++ [Obs.op (.add n true), .op (.registerRead n true)] = (l ++ [.op (.add n true)]) ++ [.op (.registerRead n true)] by simp]
    rw [reg_snoc_self n _ _ rfl, reg_snoc_self n _ _ rfl]
    exact ⟨rfl, fun _ => rfl, rfl⟩
  | elsewhere o _ ho ih => rw [reg_snoc_other n _ o ho]; exact ih
  | @move s s' l m _ h1 h2 ih =>
    obtain ⟨h3, -, -⟩ := timer_step_loop h2
    cases m with
    | close ok =>
      have : reg n (l ++ (timerCalls n (.close ok)).map .op) = (reg n l).after (.op (.remove n)) := reg_snoc_self n l _ rfl
      rw [this]
      exact ⟨by rw [h3]; rfl, (fun q => by rw [h3] at q; cases q), ih.wr⟩
    | event f => exact absurd rfl (h1 f)
    | _ =>
      simp only [timerCalls, List.map_nil, List.append_nil]
      exact ⟨by rw [h3]; exact ih.loop, fun q => ih.rd (by rw [h3] at q; exact q), ih.wr⟩
  | @event s s' l f _ h2 ih =>
    obtain ⟨h3, -, -⟩ := timer_step_loop h2
    rw [reg_snoc_self n l _ rfl]
    exact ⟨by rw [h3]; exact ih.loop, fun q => ih.rd (by rw [h3] at q; exact q), ih.wr⟩

/-- C93: whenever the loop calls the read callback of a timer, the timer has not been closed: the callback its model provides for is possible. -/
theorem timer_read_callback (env : Epoll.Env) (as : List Epoll.Act) {n : Nat} {s : Timer.St} {p post : Log} (h : TimerAt n s p)
    (hl : (Epoll.exec env Epoll.initial as).log = p ++ .read n :: post) :
    s.inLoop = true ∧ (s.stack = [] → s.ub = false → ∀ f, ∃ s', Timer.step s (.event f) = some s') := by
  obtain ⟨h1, -⟩ := Epoll.read_registered env as n p post hl
  have h3 : s.inLoop = true := by rw [← (timer_agrees h).loop]; exact h1
  refine ⟨h3, fun hk hu f => ?_⟩
  unfold Timer.step
  rw [if_neg (by rw [hu]; exact Bool.false_ne_true), hk]
  dsimp only
  rw [if_pos h3]
  exact ⟨_, rfl⟩

/-- C93: the write callback of a timer (a null pointer, timer.c 94) is never called. -/
theorem timer_no_write_callback (env : Epoll.Env) (as : List Epoll.Act) {n : Nat} {s : Timer.St} {p post : Log} {err : Bool} (h : TimerAt n s p) :
    (Epoll.exec env Epoll.initial as).log ≠ p ++ .write n err :: post := by
  intro hl
  obtain ⟨-, h2⟩ := Epoll.write_registered env as n err p post hl
  have h3 : wantsWrite n p = false := (timer_agrees h).wr
  rw [h3] at h2; cases h2

/-- C93: all calls a timer makes to the loop are for a notifier that is in the loop. -/
theorem timer_calls_legal {n : Nat} (hn : n ≠ 0) {s s' : Timer.St} {l : Log} {m : Timer.Move} (h : TimerAt n s l) (hs : Timer.step s m = some s') :
    Legal l (timerCalls n m) := by
  obtain ⟨-, h2, -⟩ := timer_step_loop hs
  cases m with
  | close ok =>
    have h3 : added n l = true := by have := (timer_agrees h).loop; rw [h2 ok rfl] at this; exact this
    exact ⟨by simp [allowed, hn, h3], trivial⟩
  | _ => trivial

/-- A program that puts a socket (notifier 1) and a timer (notifier 2) into the loop, reads from the socket and is told that both are readable. -/
example : let env : Epoll.Env := fun l => match l.getLast? with | some (.read 1) => [.unregisterRead 1 true] | _ => []
    let as : List Epoll.Act := [.call (.add 1 true), .call (.add 2 true), .call (.registerRead 2 true), .call (.registerRead 1 true),
      .run [.events [(1, ⟨true, true, false⟩), (2, ⟨true, false, false⟩)]]]
    ∃ p post s, (Epoll.exec env Epoll.initial as).log = p ++ .read 1 :: post ∧ SocketAt 1 s p ∧ s.stack = [] ∧ s.regIn = true ∧ .read 2 ∈ post := by
  intro env as
  refine ⟨[.op (.add 1 true), .op (.add 2 true), .op (.registerRead 2 true), .op (.registerRead 1 true), .wait [(1, ⟨true, true, false⟩), (2, ⟨true, false, false⟩)]],
    [.op (.unregisterRead 1 true), .read 2], { Socket.initial false with readCb := .read, pendRead := some (0, 8), nextRead := 1, regIn := true, log := [.readStarted 0] }, by decide, ?_,
    rfl, rfl, by decide⟩
  have h0 := SocketAt.created (n := 1) false []
  have h1 := (h0.elsewhere (.op (.add 2 true)) (by decide)).elsewhere (.op (.registerRead 2 true)) (by decide)
  have h2 := h1.move .enter true (by simp) (by simp) (s' := { Socket.initial false with stack := [.user] }) rfl rfl
  have h3 := h2.move (.read 8 true) true (by simp) (by simp)
    (s' := { Socket.initial false with readCb := .read, pendRead := some (0, 8), nextRead := 1, regIn := true, log := [.readStarted 0], stack := [.user] }) rfl rfl
  have h4 := h3.move .leave true (by simp) (by simp)
    (s' := { Socket.initial false with readCb := .read, pendRead := some (0, 8), nextRead := 1, regIn := true, log := [.readStarted 0] }) rfl rfl
  exact h4.elsewhere (.wait [(1, ⟨true, true, false⟩), (2, ⟨true, false, false⟩)]) (by decide)

end Cio.Linux
