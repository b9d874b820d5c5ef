import Verif.TwoConnects.Props
/-
C125: the two connects example: nobody is left behind, and the program.
-/
namespace Cio.TwoConnects
open BufferedRead (UAct Handler Job World Call)
open StreamSocket (Sys Ev Write step Allowed)

variable {quiet ct real : Bool} {memc mems hello : List UInt8} {x : Pair}

/-! ### Both sides at rest -/

/-- While a client has to close its socket, it is running, but for an attempt to connect that failed: `handle_connect` is yet to be called. -/
theorem client_in_user (hc : memc ≠ []) (hs : mems ≠ []) (hu : hello.length ≤ mems.length) (h : Together real hello quiet ct memc mems x) (hp : x.p = .toClose) :
    real = false ∨ x.c.inUser = true := by
  induction h with
  | init =>
    cases real
    · exact Or.inl rfl
    · cases hp
  | @client x p' c' e h hn ha hst hn' ih =>
    replace hp : p' = .toClose := hp
    subst hp
    cases hr : real with
    | false => exact Or.inl rfl
    | true =>
      refine Or.inr ?_
      have hne : e ≠ .leave := by
        intro q
        subst q
        unfold next at hn'
        dsimp only at hn'
        split at hn'
        · next g => injection hn' with hn'; rw [hn'] at g; rcases g with g | g <;> cases g
        · cases hn'
      refine StreamSocket.inUser_step hc (h.both hc hs hu).1.1 ha hst hne fun hact => ?_
      have ih : x.p = .toClose → x.c.inUser = true := fun q => (ih q).resolve_left (by rw [hr]; simp)
      cases e with
      | user a os => cases hact
      | loop os => cases hact
      | send r => cases hact
      | writable er => cases hact
      | leave => exact absurd rfl hne
      | write chain => unfold next at hn'; dsimp only at hn'; split at hn' <;> cases hn'
      | enter =>
        unfold next at hn'
        dsimp only at hn'
        split at hn'
        · injection hn' with hn'; exact ih hn'
        · cases hn'
      | peerSends d => injection hn' with hn'; exact ih hn'
      | peerCloses => injection hn' with hn'; exact ih hn'
      | timeout => injection hn' with hn'; exact ih hn'
      | readable r => injection hn' with hn'; exact ih hn'
  | server h hr hn ha hst hp' ih => exact ih hp

/-- C125: whenever control is back in the event loop, `handle_connect` has not run yet, or the client waits for its socket to become writable, which makes its write go on, or it has closed its socket;
then the close hook has been called, or it will be called at the latest when the close timer expires. -/
theorem client_goes_on (hc : memc ≠ []) (hs : mems ≠ []) (hu : hello.length ≤ mems.length) (h : Together real hello quiet ct memc mems x) (hst : x.c.sock.stack = []) :
    x.p = .start ∨ (x.p = .toClose ∧ real = false) ∨ (x.p = .writing ∧ x.c.asked = true ∧ ∃ c', step noReads x.c (.writable none) = some c') ∨
      (x.p = .closed ∧ (.hook ∈ x.c.sock.log ∨ ∃ c', step noReads x.c .timeout = some c' ∧ .hook ∈ c'.sock.log)) := by
  obtain ⟨⟨r, i⟩, -⟩ := h.both hc hs hu
  cases hp : x.p with
  | start => exact Or.inl rfl
  | toClose =>
    rcases client_in_user hc hs hu h hp with q | q
    · exact Or.inr (Or.inl ⟨rfl, q⟩)
    · rw [StreamSocket.Sys.not_inUser hst] at q; cases q
  | writing =>
    have hcl : x.c.br.closed = false := by
      cases hx : x.c.br.closed with
      | false => rfl
      | true => have := i.closed.1 hx; rw [hp] at this; cases this
    exact Or.inr (Or.inr (Or.inl ⟨rfl, StreamSocket.pending_write_waits hc r (i.cur.2 hp) hcl hst⟩))
  | closed =>
    refine Or.inr (Or.inr (Or.inr ⟨rfl, ?_⟩))
    have hk := StreamSocket.sockReach (StreamSocket.reach_inv hc r).sock
    rcases Socket.close_completes_partial hk ((StreamSocket.reach_inv hc r).closed.1 (i.closed.2 hp)) with q | ⟨-, q⟩
    · exact Or.inl q
    · obtain ⟨k, k1, k2⟩ := q hst
      refine Or.inr ⟨{ x.c with sock := k }, ?_, ?_⟩
      · show (Socket.step x.c.sock .timeout).map _ = _
        rw [k1]; rfl
      · show _ ∈ k.log
        rw [k2]; simp

theorem server_quiet (unit : Nat) : BufferedRead.QuietOnError (serverReads unit) := by
  intro w c hc he a ha j
  unfold serverReads at ha
  rw [hc] at ha
  dsimp only at ha
  rw [if_neg he, List.mem_singleton] at ha
  subst ha
  intro q; cases q

/-- C125: whenever control is back in the event loop, the server has not accepted the connection yet, or it waits for the rest of a greeting, or it has closed the connection. -/
theorem server_goes_on (hc : memc ≠ []) (hs : mems ≠ []) (hu : hello.length ≤ mems.length) (h : Together real hello quiet ct memc mems x) (hst : x.s.sock.stack = []) :
    x.b = false ∨ (x.s.br.waiting = true ∧ x.s.br.rb.unread.length < hello.length) ∨ x.s.br.closed = true := by
  obtain ⟨-, r, i⟩ := h.both hc hs hu
  cases hb : x.b with
  | false => exact Or.inl rfl
  | true =>
    cases hcl : x.s.br.closed with
    | true => exact Or.inr (Or.inr rfl)
    | false =>
      have hj : x.s.br.job = some (.atLeast hello.length) := by rw [i.job, if_pos ⟨hb, hcl⟩]
      have hw := StreamSocket.pending_read_waits_partial (server_quiet hello.length) hs r (by rw [hj]; rfl) hcl hst
      obtain ⟨-, -, j, h3, h4⟩ := (StreamSocket.reach_inv hs r).br.wait hw
      rw [hj] at h3
      injection h3 with h3
      subst h3
      exact Or.inr (Or.inl ⟨hw, Nat.lt_of_not_le h4⟩)

/-! ### The program -/

/-- How often the close hook of a client has been called. -/
def Client.hooks : Client → Nat
  | .up _ x => x.c.sock.log.count .hook
  | _ => 0

/-- The log of a socket only grows. -/
theorem log_grows {H : Handler} {c : Bool} {mem : List UInt8} {s s' : Sys} {e : Ev} (h : StreamSocket.Inv quiet H c mem s) (ha : Allowed quiet s e) (hs : step H s e = some s') :
    ∃ l, s'.sock.log = s.sock.log ++ l := by
  have g : ∀ {p d f}, WsTcp.Eff p d f s.sock s'.sock → ∃ l, s'.sock.log = s.sock.log ++ l := fun ⟨⟨l, hl, _⟩, _, _⟩ => ⟨l, hl⟩
  cases WsTcp.saw h ha hs with
  | user a os hx hb he => exact g he
  | loop os hx hb he => exact g he
  | data d hb he hx => exact g he
  | fail err hb he hx => exact g he
  | rest hb he hx ho => exact g he
  | sent d hx hb he ho => exact g he
  | fin hx hb he ho => exact g he

/-- A connection of the program is a connection as above. -/
def Good (hello : List UInt8) (quiet ct : Bool) (memc mems : List UInt8) : Client → Prop
  | .up real x => Together real hello quiet ct memc mems x
  | _ => True

theorem begun_good (real : Bool) : Good hello quiet ct memc mems (begun ct memc mems real) := Together.init

theorem moves_good {c c' : Client} {b : Bool} (hc : memc ≠ []) (hs : mems ≠ []) (hu : hello.length ≤ mems.length) (h : Good hello quiet ct memc mems c) (hm : Moves hello quiet c c' b) :
    Good hello quiet ct memc mems c' ∧ c'.hooks = c.hooks + (if b then 1 else 0) ∧ (b = true → c.hooks = 0 ∧ c'.hooks = 1) := by
  cases hm with
  | @client real x p' c' e hn ha hst hp =>
    have g : Together real hello quiet ct memc mems _ := .client h hn ha hst hp
    refine ⟨g, ?_⟩
    obtain ⟨-, -, -, -, -, -, -, u, -⟩ := client_sends hc hs hu g
    obtain ⟨l, hl⟩ := log_grows (StreamSocket.reach_inv hc (Together.both hc hs hu h).1.1) ha hst
    dsimp only at u
    unfold hooked Client.hooks
    dsimp only
    rw [hl, List.count_append] at u ⊢
    by_cases q : List.count Socket.Obs.hook l = 0
    · rw [q, Nat.add_zero]; simp
    · have h1 : List.count Socket.Obs.hook l = 1 := by omega
      have h2 : List.count Socket.Obs.hook x.c.sock.log = 0 := by omega
      rw [h1, h2]; simp
  | @server x b' s' e hn ha hst hp => exact ⟨.server h rfl hn ha hst hp, rfl, (fun q => nomatch q)⟩

structure PInv (hello : List UInt8) (quiet ct : Bool) (memc mems : List UInt8) (x : Prog) : Prop where
  good1 : Good hello quiet ct memc mems x.first
  good2 : Good hello quiet ct memc mems x.second
  hooks1 : x.first.hooks = if x.launched = none then 0 else 1
  unused : x.launched = none → x.second = .unused
  failed : x.launched = some .failed → x.second = .unused
  some2 : ∀ r, x.launched = some r → r ≠ .failed → x.second ≠ .unused
  cancels : x.cancels = x.signals + (x.launched.map Start.cancels).getD 0 + x.second.hooks
  ended : x.ended = true → 0 < x.cancels

theorem client_hooks (r : Start) : (r.client ct memc mems).hooks = 0 := by cases r <;> rfl

theorem Moves.used {c c' : Client} {b : Bool} (h : Moves hello quiet c c' b) : c ≠ .unused ∧ c' ≠ .unused := by
  cases h <;> exact ⟨(fun q => nomatch q), (fun q => nomatch q)⟩

theorem prog_inv {x : Prog} (hc : memc ≠ []) (hs : mems ≠ []) (hu : hello.length ≤ mems.length) (h : Reach hello quiet ct memc mems x) : PInv hello quiet ct memc mems x := by
  induction h with
  | init atOnce =>
    refine ⟨?_, trivial, ?_, fun _ => rfl, (fun q => nomatch q), (fun r q => nomatch q), rfl, (fun q => nomatch q)⟩
    · cases atOnce
      · exact trivial
      · exact Together.init
    · cases atOnce <;> rfl
  | answered1 h he hf real ih =>
    obtain ⟨h1, h2, h3, h4, h5, h6, h7, h8⟩ := ih
    refine ⟨Together.init, h2, ?_, h4, h5, h6, h7, h8⟩
    rw [hf] at h3
    exact h3
  | answered2 h he hf real ih =>
    obtain ⟨h1, h2, h3, h4, h5, h6, h7, h8⟩ := ih
    refine ⟨h1, Together.init, h3, fun q => ?_, fun q => ?_, (fun r q hr => (fun z => nomatch z)), ?_, h8⟩
    · have := h4 q; rw [hf] at this; cases this
    · have := h5 q; rw [hf] at this; cases this
    · rw [hf] at h7; exact h7
  | first h he hm ih =>
    obtain ⟨h1, h2, h3, h4, h5, h6, h7, h8⟩ := ih
    obtain ⟨m1, m2, -⟩ := moves_good hc hs hu h1 hm
    exact ⟨m1, h2, m2.trans h3, h4, h5, h6, h7, h8⟩
  | @hook1 x c h he hm r ih =>
    obtain ⟨h1, h2, h3, h4, h5, h6, h7, h8⟩ := ih
    obtain ⟨m1, -, m3⟩ := moves_good hc hs hu h1 hm
    obtain ⟨m3, m4⟩ := m3 rfl
    have hl : x.launched = none := by
      by_cases q : x.launched = none
      · exact q
      · rw [if_neg q] at h3; omega
    have h9 := h4 hl
    refine ⟨m1, ?_, m4, (fun q => nomatch q), ?_, ?_, ?_, fun q => ?_⟩
    · cases r <;> first | exact trivial | exact Together.init
    · intro q; injection q with q; subst q; rfl
    · intro r' q hr
      injection q with q
      subst q
      cases r <;> first | exact absurd rfl hr | exact (fun z => nomatch z)
    · dsimp only
      rw [client_hooks, h7, hl, h9]
      show x.signals + 0 + 0 + r.cancels = x.signals + r.cancels + 0
      omega
    · have : x.ended = true := q
      rw [he] at this; cases this
  | second h he hm ih =>
    obtain ⟨h1, h2, h3, h4, h5, h6, h7, h8⟩ := ih
    obtain ⟨m1, m2, -⟩ := moves_good hc hs hu h2 hm
    refine ⟨h1, m1, h3, fun q => absurd (h4 q) hm.used.1, fun q => absurd (h5 q) hm.used.1, fun _ _ _ => hm.used.2, ?_, h8⟩
    dsimp only
    rw [h7, m2]; rfl
  | hook2 h he hm ih =>
    obtain ⟨h1, h2, h3, h4, h5, h6, h7, h8⟩ := ih
    obtain ⟨m1, m2, -⟩ := moves_good hc hs hu h2 hm
    refine ⟨h1, m1, h3, fun q => absurd (h4 q) hm.used.1, fun q => absurd (h5 q) hm.used.1, fun _ _ _ => hm.used.2, ?_, fun _ => Nat.succ_pos _⟩
    dsimp only
    rw [h7, m2]
    simp only [if_true]
    omega
  | signal h ih =>
    obtain ⟨h1, h2, h3, h4, h5, h6, h7, h8⟩ := ih
    refine ⟨h1, h2, h3, h4, h5, h6, ?_, fun _ => Nat.succ_pos _⟩
    dsimp only
    rw [h7]
    omega
  | stop h hcc ih =>
    obtain ⟨h1, h2, h3, h4, h5, h6, h7, h8⟩ := ih
    exact ⟨h1, h2, h3, h4, h5, h6, h7, fun _ => hcc⟩

/-- C125: what was said about a connection holds for the two of the program. -/
theorem both_clients {x : Prog} (hc : memc ≠ []) (hs : mems ≠ []) (hu : hello.length ≤ mems.length) (h : Reach hello quiet ct memc mems x) {real : Bool} {y : Pair}
    (hy : x.first = .up real y ∨ x.second = .up real y) : Together real hello quiet ct memc mems y := by
  have i := prog_inv hc hs hu h
  rcases hy with q | q
  · have := i.good1; rw [q] at this; exact this
  · have := i.good2; rw [q] at this; exact this

/-- C125: the clients come one after the other: the second one is not started before the first one has closed its socket and its close hook was called, and as soon as that was called it is; the hook
is called at most once. -/
theorem one_after_the_other {x : Prog} (hc : memc ≠ []) (hs : mems ≠ []) (hu : hello.length ≤ mems.length) (h : Reach hello quiet ct memc mems x) :
    (x.second ≠ .unused → ∃ r, x.launched = some r ∧ r ≠ .failed) ∧
      (∀ r, x.launched = some r → ∃ real y, x.first = .up real y ∧ y.c.sock.log.count .hook = 1 ∧ y.c.br.closed = true ∧ (r ≠ .failed → x.second ≠ .unused)) ∧
      (x.launched = none → ∀ real y, x.first = .up real y → .hook ∉ y.c.sock.log) := by
  have i := prog_inv hc hs hu h
  refine ⟨fun q => ?_, fun r q => ?_, fun q real y hy => ?_⟩
  · cases hl : x.launched with
    | none => exact absurd (i.unused hl) q
    | some r => exact ⟨r, rfl, fun e => q (i.failed (by rw [hl, e]))⟩
  · have h3 := i.hooks1
    rw [if_neg (by rw [q]; exact (fun z => nomatch z))] at h3
    cases hf : x.first with
    | unused => rw [hf] at h3; cases h3
    | connecting => rw [hf] at h3; cases h3
    | up real y =>
      rw [hf] at h3
      have g := i.good1
      rw [hf] at g
      obtain ⟨-, -, -, -, -, -, -, -, u, -⟩ := client_sends hc hs hu g
      exact ⟨real, y, rfl, h3, u (List.count_pos_iff.1 (by rw [show y.c.sock.log.count .hook = 1 from h3]; exact Nat.one_pos)), i.some2 r q⟩
  · have h3 := i.hooks1
    rw [if_pos q, hy] at h3
    exact List.count_eq_zero.1 h3

/-- C125: the event loop comes to its end only if there was a signal, or the second client could not be started, or both clients have been there and the second one's socket was closed, its hook called. -/
theorem ends_only {x : Prog} (hc : memc ≠ []) (hs : mems ≠ []) (hu : hello.length ≤ mems.length) (h : Reach hello quiet ct memc mems x) (he : x.ended = true) :
    0 < x.signals ∨ x.launched = some .failed ∨ x.launched = some .refused ∨
      ∃ real y, x.second = .up real y ∧ y.c.sock.log.count .hook = 1 ∧ y.c.br.closed = true := by
  have i := prog_inv hc hs hu h
  have h7 := i.cancels
  have h8 := i.ended he
  by_cases hsig : x.signals = 0
  · cases hl : x.launched with
    | none => rw [hl, i.unused hl, hsig] at h7; simp [Client.hooks] at h7; omega
    | some r =>
      by_cases hr : r.cancels = 0
      · rw [hl] at h7
        have h7 : x.cancels = x.signals + r.cancels + x.second.hooks := h7
        have hh : 0 < x.second.hooks := by omega
        refine Or.inr (Or.inr (Or.inr ?_))
        cases hf : x.second with
        | unused => rw [hf] at hh; cases hh
        | connecting => rw [hf] at hh; cases hh
        | up real y =>
          rw [hf] at hh
          have g := i.good2
          rw [hf] at g
          obtain ⟨-, -, -, -, -, -, -, u1, u, -⟩ := client_sends hc hs hu g
          have hh : 0 < y.c.sock.log.count .hook := hh
          exact ⟨real, y, rfl, by omega, u (List.count_pos_iff.1 hh)⟩
      · cases r
        · exact Or.inr (Or.inl rfl)
        · exact Or.inr (Or.inr (Or.inl rfl))
        · exact absurd rfl hr
        · exact absurd rfl hr
  · exact Or.inl (by omega)

/-- C125: and it does end: as soon as the loop looks, after a signal, or if the second client could not be started, or when the second one's close hook has been called. -/
theorem does_end {x : Prog} (hc : memc ≠ []) (hs : mems ≠ []) (hu : hello.length ≤ mems.length) (h : Reach hello quiet ct memc mems x)
    (he : 0 < x.signals ∨ x.launched = some .failed ∨ x.launched = some .refused ∨ ∃ real y, x.second = .up real y ∧ .hook ∈ y.c.sock.log) :
    Reach hello quiet ct memc mems { x with ended := true } := by
  have h7 := (prog_inv hc hs hu h).cancels
  refine .stop h ?_
  rcases he with q | q | q | ⟨real, y, q, hy⟩
  · omega
  · rw [q] at h7
    have h7 : x.cancels = x.signals + 1 + x.second.hooks := h7
    omega
  · rw [q] at h7
    have h7 : x.cancels = x.signals + 1 + x.second.hooks := h7
    omega
  · rw [q] at h7
    have : 0 < y.c.sock.log.count .hook := List.count_pos_iff.2 hy
    have h7 : x.cancels = _ + y.c.sock.log.count .hook := h7
    omega

end Cio.TwoConnects
