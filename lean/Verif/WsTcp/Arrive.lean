import Verif.WsTcp.Drain
/-
What has been written can be read: the two sides never lock each other up.
-/
namespace Cio.WsTcp
open StreamSocket (Sys Os)
open BufferedRead (World)
open WsStream (Env handler shown Stopped jobOf)
open Socket (St Obs)

/-- A side goes from one state to another one by itself, without anything arriving. -/
inductive Goes (quiet : Bool) (e : Env) (c : Bool) : Sys → Sys → Prop
  | refl (s : Sys) : Goes quiet e c s s
  | step {s s1 s2 : Sys} {x : StreamSocket.Ev} (h : Goes quiet e c s s1) (ha : StreamSocket.Allowed quiet s1 x) (hp : Proper e s1 x) (hn : fromPeer x = false)
    (hs : StreamSocket.step (handler e) s1 x = some s2) (hc : s2.br.closed = true → s1.br.closed = false → s2.cur = none ∨ c = false) : Goes quiet e c s s2

theorem Goes.trans {quiet : Bool} {e : Env} {c : Bool} {s s1 s2 : Sys} (h : Goes quiet e c s s1) (g : Goes quiet e c s1 s2) : Goes quiet e c s s2 := by
  induction g with
  | refl => exact h
  | step g ha hp hn hs hc ih => exact .step ih ha hp hn hs hc

theorem Goes.end_ {quiet : Bool} {e : Env} {c : Bool} {mem : List UInt8} {s s1 : Sys} (h : Goes quiet e c s s1) (g : End quiet e c mem s) : End quiet e c mem s1 := by
  induction h with
  | refl => exact g
  | step h ha hp hn hs hc ih => exact .step ih ha hp hs hc

/-- No system call fails, the close timer does not expire at once. -/
def fine : Os := { shutOk := true, armOk := true, soon := false, regOk := true }

theorem follow_keeps {s s' : Sys} {br : World} {os : Os} (hos : os.soon = false) (h : StreamSocket.follow s br os = some s') :
    s'.br = br ∧ s'.cur = s.cur ∧ s'.asked = s.asked ∧ s'.done = s.done ∧ s'.sock.incoming = s.sock.incoming := by
  unfold StreamSocket.follow at h
  cases h1 : StreamSocket.asks s br with
  | none => rw [h1] at h; cases h
  | some k =>
    rw [h1, Option.bind_some] at h
    cases h2 : StreamSocket.closes s br os k with
    | none => rw [h2] at h; cases h
    | some k2 =>
      rw [h2] at h; cases h
      refine ⟨rfl, rfl, rfl, rfl, ?_⟩
      have e1 : k.incoming = s.sock.incoming := by
        unfold StreamSocket.asks at h1
        split at h1
        · obtain ⟨-, g⟩ := StreamSocket.sock_read h1
          subst g; rfl
        · cases h1; rfl
      refine Eq.trans ?_ e1
      unfold StreamSocket.closes at h2
      split at h2
      · rw [hos] at h2
        obtain ⟨-, g⟩ := StreamSocket.sock_close h2
        rcases g with ⟨-, g⟩ | ⟨cb, g⟩ <;> subst g <;> rfl
      · cases h2; rfl

section side
variable {e : Env} {c : Bool} {mem : List UInt8} (hmem : 125 ≤ mem.length)

include hmem in
theorem end_inv {quiet : Bool} {s : Sys} (h : End quiet e c mem s) : StreamSocket.Inv quiet (handler e) c mem s :=
  StreamSocket.reach_inv (fun g => by rw [g] at hmem; exact absurd hmem (by decide)) (end_reach hmem h).1

include hmem in
theorem end_stack {quiet : Bool} {s : Sys} (h : End quiet e c mem s) : ∀ i ∈ s.sock.stack, i = .user := by
  induction h with
  | init => intro i hi; cases hi
  | step h ha hp hs hc ih => exact (saw (end_inv hmem h) ha hs).stack ih

/-- The states of a WebSocket that has got (a part of) these bytes, in whatever way, and has had no error of the transport, are not stopped. -/
def Harmless (e : Env) (mem bytes : List UInt8) : Prop :=
  ∀ xs w, WsStream.Reach e mem xs w → w.received <+: bytes → w.transportErrs = [] → (e.sess w).rx.cont ≠ .stopped

/-- Only a WebSocket that has stopped is closed from within its handlers. -/
theorem call_closes {w : World} (hsh : w.shallClose = false) (hcl : w.closed = false) (hcb : w.callbackIsRunning = 0) (j : BufferedRead.Job) (err : Err) (num : Nat)
    (h : (BufferedRead.callHandler (handler e) w j err num).1.closed = true) : (e.sess (BufferedRead.callHandler (handler e) w j err num).1).rx.cont = .stopped := by
  unfold BufferedRead.callHandler at h ⊢
  dsimp only at h ⊢
  generalize hw1 : ({ w with job := none, callbackIsRunning := w.callbackIsRunning + 1, calls := w.calls ++ [⟨j, err, num, w.rb.unread, w.consumed, w.received, w.rb.fetch⟩] } : World) = w1 at h ⊢
  have s1 : w1.shallClose = false := by subst hw1; exact hsh
  have c1 : w1.closed = false := by subst hw1; exact hcl
  have b1 : w1.callbackIsRunning ≠ 0 := by subst hw1; exact Nat.succ_ne_zero _
  have hk := StreamSocket.acts_kept (handler e w1) w1
  have hc2 := hk.closed b1
  by_cases hst : (e.sess w1).rx.cont = .stopped
  · split
    · unfold WsStream.Env.sess at hst ⊢; rw [hk.calls]; exact hst
    · unfold WsStream.Env.sess at hst ⊢; rw [hk.calls]; exact hst
  · exfalso
    have hsh2 : ((handler e w1).foldl BufferedRead.act w1).shallClose = false := by
      unfold WsStream.handler
      dsimp only
      rw [if_neg hst]
      have r : ∀ (w : World) j, (BufferedRead.read w j).shallClose = w.shallClose := by
        intro w j
        unfold BufferedRead.read
        cases j with
        | atLeast n => dsimp only; split <;> rfl
        | atMost n => rfl
        | «until» d => rfl
      split
      · exact s1
      · rw [List.foldl_cons, List.foldl_cons, List.foldl_nil]
        show (BufferedRead.read _ _).shallClose = false
        rw [r]; exact s1
    rw [if_neg (by rw [hsh2]; simp)] at h
    have h : ((handler e w1).foldl BufferedRead.act w1).closed = true := h
    rw [hc2, c1] at h; cases h

theorem loop_closes {sz : Nat} {ds : List (List UInt8)} {w : World} (hi : WsStream.Inv e sz ds w) (hl : w.looping = true)
    (h : (BufferedRead.loopIter (handler e) w SUCCESS).closed = true) : (e.sess (BufferedRead.loopIter (handler e) w SUCCESS)).rx.cont = .stopped := by
  have hcl := hi.loop hl
  have hsh : w.shallClose = false := by
    cases q : w.shallClose with
    | false => rfl
    | true => have := hi.good.shall q; rw [hcl] at this; cases this
  have hcb := hi.base.cb
  have run : ∀ (w : World) j, w.shallClose = false → w.closed = false → w.callbackIsRunning = 0 → (BufferedRead.runJob (handler e) w j).1.closed = true →
      (e.sess (BufferedRead.runJob (handler e) w j).1).rx.cont = .stopped := by
    intro w j a1 a2 a3 h
    unfold BufferedRead.runJob at h ⊢
    split at h
    · next hg => rw [if_pos hg]; exact call_closes a1 a2 a3 _ _ _ h
    · next hg =>
      rw [if_neg hg]
      cases j with
      | atMost n =>
        dsimp only at h ⊢
        split at h
        · next g => rw [if_pos g]; exact call_closes a1 a2 a3 _ _ _ h
        · rw [a2] at h; cases h
      | «until» d =>
        dsimp only at h ⊢
        generalize Memmem.memmem w.rb.unread d = m at h ⊢
        match m, h with
        | none, h => have h : w.closed = true := h; rw [a2] at h; cases h
        | some none, h => have h : w.closed = true := h; rw [a2] at h; cases h
        | some (some f), h => exact call_closes a1 a2 a3 _ _ _ h
      | atLeast n =>
        dsimp only at h ⊢
        split at h
        · next g => rw [if_pos g]; exact call_closes a1 a2 a3 _ _ _ h
        · rw [a2] at h; cases h
  have rs : ∀ (v : World) j, v.closed = false → (BufferedRead.readSome (handler e) v j SUCCESS).closed = false := by
    intro v j hv; unfold BufferedRead.readSome; rw [if_neg (by simp)]; exact hv
  unfold BufferedRead.loopIter at h ⊢
  cases hj : w.job with
  | none => rw [hj] at h; have h : w.closed = true := h; rw [hcl] at h; cases h
  | some j =>
    rw [hj] at h
    dsimp only at h ⊢
    have hr := run w j hsh hcl hcb
    generalize hrj : BufferedRead.runJob (handler e) w j = r at h hr ⊢
    obtain ⟨v, st⟩ := r
    cases st with
    | closed => exact hr h
    | «open» => exact hr h
    | again =>
      have hv : v = w := by
        unfold BufferedRead.runJob at hrj
        have nc : ∀ err num, (BufferedRead.callHandler (handler e) w j err num) ≠ (v, .again) := by
          intro err num g
          unfold BufferedRead.callHandler at g
          dsimp only at g
          split at g <;> cases g
        split at hrj
        · exact absurd hrj (nc _ _)
        · cases j with
          | atMost n =>
            dsimp only at hrj
            split at hrj
            · exact absurd hrj (nc _ _)
            · cases hrj; rfl
          | «until» d =>
            dsimp only at hrj
            generalize Memmem.memmem w.rb.unread d = m at hrj
            match m, hrj with
            | none, hrj => cases hrj
            | some none, hrj => cases hrj; rfl
            | some (some f), hrj => exact absurd hrj (nc _ _)
          | atLeast n =>
            dsimp only at hrj
            split at hrj
            · exact absurd hrj (nc _ _)
            · cases hrj; rfl
      subst hv
      dsimp only at h ⊢
      unfold BufferedRead.fillBuffer at h ⊢
      split at h
      · next g1 =>
        rw [if_pos g1]
        split at h
        · next g2 => rw [if_pos g2]; exact run { v with lastError := MESSAGE_TOO_LONG } j hsh hcl hcb h
        · rw [rs { v with rb := v.rb.compact } j hcl] at h; cases h
      · rw [rs v j hcl] at h; cases h

end side

end Cio.WsTcp
