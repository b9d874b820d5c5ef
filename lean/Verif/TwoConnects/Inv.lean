import Verif.TwoConnects.Model
import Verif.PingPong.Always
import Verif.StreamSocket.Exact
import Verif.Echo.Exact
/-
Invariants of the two sides of a connection of the two connects example.
-/
namespace Cio.TwoConnects
open BufferedRead (UAct Handler Job World Call)
open StreamSocket (Sys Ev Write step Allowed follow settle answer)
open Echo (elem)

/-! ### The client -/

structure CInv (hello : List UInt8) (p : Phase) (s : Sys) : Prop where
  misuse : s.br.misuse = false
  job : s.br.job = none
  loop : s.br.looping = false
  wait : s.br.waiting = false
  run : s.br.callbackIsRunning = 0
  calls : s.br.calls = []
  cur : s.cur.isSome = true ↔ p = .writing
  none' : p = .start ∨ p = .writing → s.done = []
  one : s.done.length ≤ 1
  chain : ∀ x ∈ s.writes, x.chain = [⟨elem, hello⟩]
  closed : s.br.closed = true ↔ p = .closed

theorem client_init (hello : List UInt8) (c : Bool) (mem : List UInt8) {p : Phase} (hp : p = .start ∨ p = .toClose) : CInv hello p (StreamSocket.initial c mem) := by
  refine ⟨rfl, rfl, rfl, rfl, rfl, rfl, ?_, fun _ => rfl, Nat.zero_le _, (fun x hx => nomatch hx), ?_⟩
  · rcases hp with rfl | rfl <;> exact ⟨(fun q => nomatch q), (fun q => nomatch q)⟩
  · rcases hp with rfl | rfl <;> exact ⟨(fun q => nomatch q), (fun q => nomatch q)⟩

theorem CInv.sockOnly {hello : List UInt8} {p : Phase} {s : Sys} (h : CInv hello p s) (k : Socket.St) : CInv hello p { s with sock := k } := by
  obtain ⟨h1, h2, h3, h4, h5, h6, h7, h8, h9, h10, h11⟩ := h
  exact ⟨h1, h2, h3, h4, h5, h6, h7, h8, h9, h10, h11⟩

/-- A write was answered. -/
theorem client_write {hello : List UInt8} {p p' : Phase} {s s' : Sys} {x : Write} (h : CInv hello p s) (hx : s.cur = some x) (hbr : s'.br = s.br)
    (hy : ∃ y : Write, y.chain = x.chain ∧ ((s'.cur = none ∧ s'.done = s.done ++ [y]) ∨ (s'.cur = some y ∧ s'.done = s.done)))
    (hp : (if s'.done.length = s.done.length then some p else some .toClose) = some p') : CInv hello p' s' := by
  have hpw : p = .writing := h.cur.1 (by rw [hx]; rfl)
  have hd := h.none' (Or.inr hpw)
  have hch : x.chain = [⟨elem, hello⟩] := h.chain x (by unfold StreamSocket.Sys.writes; rw [hx]; simp)
  have hcl : s.br.closed = false := by
    cases hc : s.br.closed with
    | false => rfl
    | true => have := h.closed.1 hc; rw [hpw] at this; cases this
  obtain ⟨y, hy1, hy2⟩ := hy
  obtain ⟨h1, h2, h3, h4, h5, h6, h7, h8, h9, h10, h11⟩ := h
  rcases hy2 with ⟨e1, e2⟩ | ⟨e1, e2⟩
  · rw [e2, if_neg (by simp)] at hp
    injection hp with hp
    subst hp
    refine ⟨by rw [hbr]; exact h1, by rw [hbr]; exact h2, by rw [hbr]; exact h3, by rw [hbr]; exact h4, by rw [hbr]; exact h5, by rw [hbr]; exact h6, ?_, ?_, ?_, ?_, ?_⟩
    · rw [e1]; exact ⟨(fun q => nomatch q), (fun q => nomatch q)⟩
    · rintro (q | q) <;> cases q
    · rw [e2, hd]; exact Nat.le_refl 1
    · intro z hz
      unfold StreamSocket.Sys.writes at hz
      rw [e1, e2, hd] at hz
      simp only [List.nil_append, Option.toList_none, List.append_nil, List.mem_singleton] at hz
      rw [hz, hy1, hch]
    · rw [hbr, hcl]; exact ⟨(fun q => nomatch q), (fun q => nomatch q)⟩
  · rw [e2, if_pos rfl] at hp
    injection hp with hp
    subst hp
    refine ⟨by rw [hbr]; exact h1, by rw [hbr]; exact h2, by rw [hbr]; exact h3, by rw [hbr]; exact h4, by rw [hbr]; exact h5, by rw [hbr]; exact h6, ?_, ?_, ?_, ?_, ?_⟩
    · rw [e1]; exact ⟨fun _ => hpw, fun _ => rfl⟩
    · rw [e2]; exact h8
    · rw [e2]; exact h9
    · intro z hz
      unfold StreamSocket.Sys.writes at hz
      rw [e1, e2, hd] at hz
      simp only [List.nil_append, Option.toList_some, List.mem_singleton] at hz
      rw [hz, hy1, hch]
    · rw [hbr]; exact h11

theorem client_step {hello : List UInt8} {p p' : Phase} {s s' : Sys} {e : Ev} (h : CInv hello p s) (hs : step noReads s e = some s') (hp : next hello p s s' e = some p') : CInv hello p' s' := by
  have sock : ∀ {m : Socket.Move}, (Socket.step s.sock m).map (fun k => { s with sock := k }) = some s' → CInv hello p s' := fun {m} hm => by
    cases hk : Socket.step s.sock m with
    | none => rw [hk] at hm; cases hm
    | some k => rw [hk] at hm; injection hm with hm; subst hm; exact h.sockOnly k
  cases e with
  | peerSends d => injection hp with hp; subst hp; exact sock hs
  | peerCloses => injection hp with hp; subst hp; exact sock hs
  | timeout => injection hp with hp; subst hp; exact sock hs
  | enter =>
    unfold next at hp
    dsimp only at hp
    split at hp
    · injection hp with hp; subst hp; exact sock hs
    · cases hp
  | leave =>
    unfold next at hp
    dsimp only at hp
    unfold step at hs
    dsimp only at hs
    split at hs
    · cases hs
    · split at hp
      · injection hp with hp; subst hp; exact sock hs
      · cases hp
  | loop os =>
    unfold step BufferedRead.step at hs
    dsimp only at hs
    rw [h.loop] at hs
    split at hs
    · cases hs
    · cases hs
  | readable r =>
    injection hp with hp; subst hp
    unfold step at hs
    dsimp only at hs
    cases hk : Socket.step s.sock (.readable true r) with
    | none => rw [hk] at hs; cases hs
    | some k =>
      rw [hk, Option.bind_some] at hs
      split at hs
      · next t er d _ =>
        have no : BufferedRead.step noReads s.br (if er = SUCCESS then .deliver d else .fail er) = none := by
          split <;> (unfold BufferedRead.step; dsimp only; rw [h.wait]; rfl)
        rw [no] at hs; cases hs
      · injection hs with hs; subst hs; exact h.sockOnly k
  | user a os =>
    unfold next at hp
    dsimp only at hp
    split at hp
    case isFalse => cases hp
    next hpa =>
    obtain ⟨hpt, ha⟩ := hpa
    injection hp with hp; subst hp
    subst ha
    unfold step at hs
    dsimp only at hs
    split at hs
    · cases hs
    · cases hb : BufferedRead.step noReads s.br (.user .close) with
      | none => rw [hb] at hs; cases hs
      | some br =>
        rw [hb, Option.bind_some] at hs
        obtain ⟨f1, f2, f3, -⟩ := Echo.follow_eq hs
        unfold BufferedRead.step at hb
        dsimp only at hb
        split at hb
        · cases hb
        · injection hb with hb
          have hb' : br = { s.br with closed := true } := by
            rw [← hb]; unfold BufferedRead.act BufferedRead.close; dsimp only; rw [if_pos h.run]
          obtain ⟨h1, h2, h3, h4, h5, h6, h7, h8, h9, h10, h11⟩ := h
          refine ⟨by rw [f1, hb']; exact h1, by rw [f1, hb']; exact h2, by rw [f1, hb']; exact h3, by rw [f1, hb']; exact h4, by rw [f1, hb']; exact h5, by rw [f1, hb']; exact h6, ?_, ?_, ?_, ?_, ?_⟩
          · rw [f2, h7, hpt]; exact ⟨(fun q => nomatch q), (fun q => nomatch q)⟩
          · rintro (q | q) <;> cases q
          · rw [f3]; exact h9
          · unfold StreamSocket.Sys.writes; rw [f2, f3]; exact h10
          · rw [f1, hb']; exact ⟨fun _ => rfl, fun _ => rfl⟩
  | write chain =>
    unfold next at hp
    dsimp only at hp
    split at hp
    case isFalse => cases hp
    next hpa =>
    obtain ⟨hps, hch⟩ := hpa
    injection hp with hp; subst hp
    unfold step at hs
    dsimp only at hs
    split at hs
    · cases hs
    · injection hs with hs
      have hd := h.none' (Or.inl hps)
      obtain ⟨h1, h2, h3, h4, h5, h6, h7, h8, h9, h10, h11⟩ := h
      subst hs
      refine ⟨h1, h2, h3, h4, h5, h6, ⟨fun _ => rfl, fun _ => rfl⟩, fun _ => hd, h9, ?_, ?_⟩
      · intro z hz
        unfold StreamSocket.Sys.writes at hz
        dsimp only at hz
        rw [hd] at hz
        simp only [List.nil_append, Option.toList_some, List.mem_singleton] at hz
        rw [hz, hch]
      · show s.br.closed = true ↔ _
        rw [h11, hps]; exact ⟨(fun q => nomatch q), (fun q => nomatch q)⟩
  | send r =>
    unfold next at hp
    dsimp only at hp
    unfold step at hs
    dsimp only at hs
    cases hc : s.cur with
    | none => rw [hc] at hs; cases hs
    | some x =>
      rw [hc] at hs
      dsimp only at hs
      split at hs
      · cases hs
      · cases hk : Socket.step s.sock (.write x.data r true) with
        | none => rw [hk] at hs; cases hs
        | some k =>
          rw [hk, Option.bind_some] at hs
          split at hs
          · obtain ⟨g1, g2⟩ := Echo.settle_eq hs; exact client_write h hc g1 g2 hp
          · injection hs with hs
            subst hs
            exact client_write h hc rfl ⟨x, rfl, Or.inr ⟨rfl, rfl⟩⟩ hp
          · obtain ⟨g1, g2⟩ := Echo.settle_eq hs; exact client_write h hc g1 g2 hp
          · cases hs
  | writable err =>
    unfold next at hp
    dsimp only at hp
    unfold step at hs
    dsimp only at hs
    cases hk : Socket.step s.sock (.writable err) with
    | none => rw [hk] at hs; cases hs
    | some k =>
      rw [hk, Option.bind_some] at hs
      split at hs
      · next x t e n hc hans => obtain ⟨g1, g2⟩ := Echo.settle_eq hs; exact client_write h hc g1 g2 hp
      · cases hs

end Cio.TwoConnects
