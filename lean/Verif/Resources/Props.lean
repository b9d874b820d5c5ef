import Verif.Resources.Inv
/-
C42 and C43: descriptors, epoll registrations and client memory.
-/
namespace Cio.Resources

/- ### C43: initialisation is all or nothing -/

/-- The resources held, as a user could count them. -/
def holds (w : World) : List Fd × List Fd × List Nat × List Fd × Bool := (w.opened, w.added, w.clients, w.armed, w.bad)

theorem Same.holds {w w' : World} (h : Same w w') : holds w' = holds w := by
  obtain ⟨u, n, _, rfl⟩ := h; rfl

/-- C43: `cio_eventloop_init`: if it fails, nothing is left; if it succeeds, two new descriptors are open, the second is registered, and
`cio_eventloop_destroy` leaves everything as it was. -/
theorem eventloop_init_all_or_nothing (w : World) (hw : Wf w) :
    match (eventloopInit w).1 with
    | .error _ => holds (eventloopInit w).2 = holds w
    | .ok (epoll, ev) => epoll ∉ w.opened ∧ ev ∉ w.opened ∧ epoll ≠ ev ∧
      holds (eventloopInit w).2 = (ev :: epoll :: w.opened, ev :: w.added, w.clients, w.armed, w.bad) ∧
      holds (eventloopDestroy (epoll, ev) (eventloopInit w).2).2 = holds w := by
  rcases eventloopInit_cases w hw with ⟨e, h, hs⟩ | ⟨h, u, hs⟩
  · rw [h]; exact hs.holds
  · have e2 := erase_fresh w.added w.next hw.added
    have e3 := erase_fresh w.armed w.next hw.armed
    have e4 := erase_fresh w.added (w.next + 1) (fun x hx => Nat.lt_succ_of_lt (hw.added x hx))
    have e5 := erase_fresh w.armed (w.next + 1) (fun x hx => Nat.lt_succ_of_lt (hw.armed x hx))
    rw [h, hs]
    refine ⟨fun hm => absurd (hw.opened _ hm) (by omega), fun hm => absurd (hw.opened _ hm) (by omega), Nat.ne_of_lt (Nat.lt_succ_self _), rfl, ?_⟩
    simp [eventloopDestroy, bindM, sys, loopRemove, sysClose, holds, e2, e3, e4, e5]

/-- C43: `cio_timer_init` and `cio_timer_close`. -/
theorem timer_init_all_or_nothing (w : World) (hw : Wf w) :
    match (timerInit w).1 with
    | .error _ => holds (timerInit w).2 = holds w
    | .ok fd => fd ∉ w.opened ∧ holds (timerInit w).2 = (fd :: w.opened, fd :: w.added, w.clients, w.armed, w.bad) ∧
      holds (timerClose fd (timerInit w).2).2 = holds w := by
  rcases timerInit_cases w hw with ⟨e, h, hs⟩ | ⟨h, u, hs⟩
  · rw [h]; exact hs.holds
  · have e2 := erase_fresh w.added w.next hw.added
    have e3 := erase_fresh w.armed w.next hw.armed
    rw [h, hs]
    refine ⟨fun hm => absurd (hw.opened _ hm) (by omega), rfl, ?_⟩
    simp [timerClose, bindM, loopRemove, sysClose, holds, e2, e3]

/-- C43: `cio_socket_init`. -/
theorem socket_init_all_or_nothing (f : Family) (w : World) (hw : Wf w) :
    match (socketInit f w).1 with
    | .error _ => holds (socketInit f w).2 = holds w
    | .ok (fd, timer) => fd ∉ w.opened ∧ timer ∉ w.opened ∧ fd ≠ timer ∧
      holds (socketInit f w).2 = (timer :: fd :: w.opened, fd :: timer :: w.added, w.clients, w.armed, w.bad) := by
  rcases socketInit_cases f w hw with ⟨e, h, hs⟩ | ⟨h, u, hs⟩
  · rw [h]; exact hs.holds
  · rw [h, hs]
    exact ⟨fun hm => absurd (hw.opened _ hm) (by omega), fun hm => absurd (hw.opened _ hm) (by omega), Nat.ne_of_lt (Nat.lt_succ_self _), rfl⟩

/-- C43: `cio_server_socket_init`. -/
theorem server_socket_init_all_or_nothing (f : Family) (w : World) (hw : Wf w) :
    match (serverSocketInit f w).1 with
    | .error _ => holds (serverSocketInit f w).2 = holds w
    | .ok fd => fd ∉ w.opened ∧ holds (serverSocketInit f w).2 = (fd :: w.opened, w.added, w.clients, w.armed, w.bad) := by
  unfold serverSocketInit
  simp only [bindM]
  rcases socketCreate_cases f w hw with ⟨e, h, hs⟩ | ⟨h, u, hs⟩
  · rw [h]; exact hs.holds
  · rw [h]
    simp only [pureM, hs]
    exact ⟨fun hm => absurd (hw.opened _ hm) (by omega), rfl⟩

theorem bind_same (uds : Bool) (w : World) : ∃ u, (serverSocketBind uds w).2 = { w with used := u } := by
  unfold serverSocketBind
  cases uds
  · exact ⟨w.used + 1, rfl⟩
  · simp only [if_true, bindM, sys]
    cases h : w.ans w.used with
    | none => exact ⟨w.used + 2, rfl⟩
    | some e =>
      by_cases he : e = -2
      · exact ⟨w.used + 2, by simp [he]; rfl⟩
      · exact ⟨w.used + 1, by simp [he, pureM]⟩

/-- C43: `cio_http_server_serve` on an open, unregistered server socket: if it fails, the descriptor is closed and the close hook called once;
nothing else changes. -/
theorem serve_all_or_nothing (fd : Fd) (uds : Bool) (w : World) (hfd : fd ∈ w.opened) (ha : fd ∉ w.added) (hr : fd ∉ w.armed) :
    match (serverServe fd uds w).1 with
    | some _ => holds (serverServe fd uds w).2 = (w.opened.erase fd, w.added, w.clients, w.armed, w.bad) ∧ (serverServe fd uds w).2.hooks = w.hooks + 1
    | none => holds (serverServe fd uds w).2 = (w.opened, fd :: w.added, w.clients, w.armed, w.bad) ∧ (serverServe fd uds w).2.hooks = w.hooks := by
  have e1 : w.added.erase fd = w.added := List.erase_of_not_mem ha
  have e2 : w.armed.erase fd = w.armed := List.erase_of_not_mem hr
  unfold serverServe
  simp only [bindM, sys]
  cases h1 : w.ans w.used with
  | some e => simp [bindM, pureM, serverSocketClose, loopRemove, sysClose, hfd, holds, e1, e2]
  | none =>
    simp only [bindM]
    obtain ⟨u, hb⟩ := bind_same uds { w with used := w.used + 1 }
    cases h2 : (serverSocketBind uds { w with used := w.used + 1 }).1 with
    | some e => simp [bindM, pureM, hb, serverSocketClose, loopRemove, sysClose, hfd, holds, e1, e2]
    | none =>
      simp only [bindM, hb, serverSocketAccept, sys, loopAdd]
      cases h3 : w.ans u with
      | some e => simp [bindM, pureM, serverSocketClose, loopRemove, sysClose, hfd, holds, e1, e2]
      | none =>
        simp only [bindM, loopAdd]
        cases h4 : w.ans (u + 1) with
        | some e => simp [bindM, pureM, serverSocketClose, loopRemove, sysClose, hfd, holds, e1, e2]
        | none =>
          simp only [sys]
          cases h5 : w.ans (u + 1 + 1) with
          | some e => simp [bindM, pureM, serverSocketClose, loopRemove, sysClose, hfd, holds, e1, e2]
          | none => simp [pureM, holds]

/-- C43, deviation: if TCP fast open cannot be switched on, `cio_http_server_init` fails but the listening descriptor stays open. -/
theorem fastopen_failure_leaks (f : Family) (hf : f = .inet4 ∨ f = .unix) (w : World) (e : Err) (h1 : w.ans w.used = none) (h2 : w.ans (w.used + 1) = some e) :
    (serverInit f true true w).1.1 = some e ∧ (serverInit f true true w).2.opened = w.next :: w.opened := by
  rcases hf with rfl | rfl <;> simp [serverInit, serverSocketInit, socketCreate, bindM, sysOpen, h1, h2, sys, pureM]

/-- C43 without fast open: `cio_http_server_init` is all or nothing. -/
theorem server_init_partial (f : Family) (fits : Bool) (w : World) (hw : Wf w) :
    match (serverInit f fits false w).1 with
    | (some _, _) => holds (serverInit f fits false w).2 = holds w
    | (none, none) => False
    | (none, some fd) => fd ∉ w.opened ∧ holds (serverInit f fits false w).2 = (fd :: w.opened, w.added, w.clients, w.armed, w.bad) := by
  unfold serverInit
  cases fits
  · exact rfl
  · have := server_socket_init_all_or_nothing f w hw
    cases h : (serverSocketInit f w).1 with
    | error e => rw [h] at this; simpa [bindM, pureM, h] using this
    | ok fd => rw [h] at this; simpa [bindM, pureM, h] using this

/- ### C42: accepting connections -/

/-- C42: one wake-up of a listening socket.  Either there was no connection, and nothing happens; or the handler is told of an error, and nothing else
has changed; or the handler gets one new client, whose two descriptors are open and registered. -/
theorem accept_hands_over_or_cleans_up (ee : Option Err) (w : World) (hw : Wf w) (hs : w.server = true) :
    ((acceptCallback ee remember w).2.accepted = w.accepted ∧ holds (acceptCallback ee remember w).2 = holds w ∧
      ee = none ∧ (w.ans w.used = some eAgain ∨ w.ans w.used = some eBadF)) ∨
    (∃ e, (acceptCallback ee remember w).2.accepted = (some e, none) :: w.accepted ∧ holds (acceptCallback ee remember w).2 = holds w ∧
      (∀ e', ee = some e' → e = e') ∧ (ee = none → ∀ e', w.ans w.used = some e' → e = e')) ∨
    (∃ c fd timer, (acceptCallback ee remember w).2.accepted = (none, some c) :: w.accepted ∧ c ∉ w.clients ∧ fd ∉ w.opened ∧ timer ∉ w.opened ∧ fd ≠ timer ∧
      (acceptCallback ee remember w).2.sockOf c = some (fd, timer) ∧
      holds (acceptCallback ee remember w).2 = (timer :: fd :: w.opened, fd :: timer :: w.added, c :: w.clients, w.armed, w.bad) ∧
      ee = none ∧ w.ans w.used = none) := by
  rcases accept_cases ee remember _ _ _ quiet_remember w hw hs with ⟨h1, h2, h3⟩ | ⟨_, e, u, n, _, h1, h2, h3⟩ | ⟨h1, h2, u, h3⟩
  · left; rw [h3]; exact ⟨rfl, rfl, h1, h2⟩
  · right; left; rw [h3]; exact ⟨e, rfl, rfl, h1, h2⟩
  · right; right; rw [h3]
    refine ⟨w.next + 1, w.next, w.next + 2, rfl, fun hm => absurd (hw.clients _ hm) (by omega), fun hm => absurd (hw.opened _ hm) (by omega), fun hm => absurd (hw.opened _ hm) (by omega), Nat.ne_of_lt (by show w.next < w.next + 2; omega), ?_, rfl, h1, h2⟩
    simp [remember, handedOver]

/-- A server that has not accepted anything yet. -/
structure Start (w : World) : Prop where
  wf : Wf w
  bad : w.bad = false
  server : w.server = true
  clients : w.clients = []
  closing : w.closing = []
  timers : ∀ c, w.timersOf c = none
  nodupO : w.opened.Nodup
  nodupA : w.added.Nodup
  count : w.nullFreed = 0

theorem Start.inv {w : World} (h : Start w) : Inv w.opened w.added w := by
  obtain ⟨a, b, sv, c, d, e, f, g, k⟩ := h
  refine ⟨a, b, ?_, ?_, f, g, ?_, ?_, ?_, ?_, ?_, fun x _ => e x, by omega, sv⟩
  · rw [c]; simp
  · rw [c]; simp
  · rw [c]; simp
  · rw [d]; simp
  · rw [d]; simp
  · rw [c]; simp
  · rw [c]; simp

theorem flatMap_length (f : Nat → List Fd) (x : List Nat) : ∀ l : List Nat, l.Nodup → (∀ c ∈ l, (f c).length = if c ∈ x then 2 else 4) → x.Nodup → (∀ c ∈ x, c ∈ l) →
    (l.flatMap f).length + 2 * x.length = 4 * l.length := by
  intro l hl hf hx hxl
  have key : ∀ l : List Nat, (∀ c ∈ l, (f c).length = if c ∈ x then 2 else 4) → (l.flatMap f).length + 2 * (l.filter (· ∈ x)).length = 4 * l.length := by
    intro l hl
    induction l with
    | nil => rfl
    | cons a t ih =>
      have h1 := hl a (by simp)
      have h2 := ih (fun c hc => hl c (by simp [hc]))
      simp only [List.flatMap_cons, List.length_append, h1, List.filter_cons, List.length_cons]
      by_cases ha : a ∈ x
      · simp only [ha, if_true, decide_true, List.length_cons]; omega
      · simp only [ha, if_false, decide_false, Bool.false_eq_true]; omega
  have := key l hf
  have hp : (l.filter (· ∈ x)).Perm x := by
    rw [List.perm_ext_iff_of_nodup (hl.filter _) hx]
    intro a; simp; exact hxl a
  rw [hp.length_eq] at this
  omega

/-- C42: at every moment of every history of an HTTP server, whatever the operating system answers, a served client holds its descriptor and three timers,
a closing one its descriptor and one timer, and there is nothing else; nothing is closed or released twice; clients not being closed are being read. -/
theorem server_resources (w w' : World) (es : List Event) (h : Start w) (hr : Run w es w') :
    w'.bad = false ∧ w'.opened.length + 2 * w'.closing.length = w.opened.length + 4 * w'.clients.length ∧
    w'.added.length + 2 * w'.closing.length = w.added.length + 4 * w'.clients.length ∧
    (∀ fd ∈ w.opened, fd ∈ w'.opened) ∧ w'.opened.Nodup ∧ w'.clients.Nodup ∧
    (∀ c ∈ w'.clients, c ∈ w'.closing ∨ c ∈ w'.reading) ∧ (∀ c ∈ w'.closing, c ∈ w'.clients) := by
  have hi := h.inv.run hr
  have hlen := flatMap_length (held w') w'.closing w'.clients hi.nodupC (by
    intro c hc
    obtain ⟨⟨f, t⟩, hs⟩ := Option.isSome_iff_exists.mp (hi.sock c hc)
    by_cases hx : c ∈ w'.closing
    · rw [if_pos hx]
      simp [held, hs, (hi.closing c hx).2, pairList]
    · rw [if_neg hx]
      obtain ⟨⟨r, q⟩, ht⟩ := Option.isSome_iff_exists.mp (hi.serving c hc hx).1
      simp [held, hs, ht, pairList]) hi.nodupX (fun c hc => (hi.closing c hc).1)
  have ho := hi.opened.length_eq
  have ha := hi.added.length_eq
  rw [List.length_append] at ho ha
  refine ⟨hi.bad, by omega, by omega, ?_, hi.nodupO, hi.nodupC, ?_, fun c hc => (hi.closing c hc).1⟩
  · intro fd hfd
    exact hi.opened.mem_iff.mpr (by simp [hfd])
  · intro c hc
    by_cases hx : c ∈ w'.closing
    · exact .inl hx
    · exact .inr (hi.serving c hc hx).2

/-- C42: when all clients are gone, exactly the descriptors and registrations of the beginning are left. -/
theorem nothing_left (w w' : World) (es : List Event) (h : Start w) (hr : Run w es w') (hc : w'.clients = []) :
    w'.opened.Perm w.opened ∧ w'.added.Perm w.added ∧ w'.closing = [] := by
  have hi := h.inv.run hr
  have h1 := hi.opened
  have h2 := hi.added
  rw [hc] at h1 h2
  refine ⟨by simpa using h1, by simpa using h2, ?_⟩
  apply List.eq_nil_iff_forall_not_mem.mpr
  intro c hx
  have := (hi.closing c hx).1
  rw [hc] at this
  exact absurd this (by simp)

/-- C42: a client that is being closed can complete the close, after which it is released. -/
theorem closing_completes (w w' : World) (es : List Event) (h : Start w) (hr : Run w es w') (c : Nat) (hc : c ∈ w'.closing) :
    possible w' (.closed c) ∧ c ∉ (handle (.closed c) w').2.clients ∧ ∀ x, x ≠ c → (x ∈ (handle (.closed c) w').2.clients ↔ x ∈ w'.clients) := by
  have hi := h.inv.run hr
  have := (hi.closed c hc).2.1
  refine ⟨hc, ?_, ?_⟩
  · show c ∉ (closeSocket c w').2.clients
    rw [this]; exact hi.nodupC.not_mem_erase
  · intro x hx
    show x ∈ (closeSocket c w').2.clients ↔ _
    rw [this, hi.nodupC.mem_erase_iff]; simp [hx]

/-- C42, deviation: whenever the HTTP server is told of an error, it calls `free_client(NULL)`. -/
theorem accept_error_frees_null (ee : Option Err) (size : Nat) (w : World) (hw : Wf w) (hs : w.server = true) (e : Err)
    (h : ee = some e ∨ ee = none ∧ w.ans w.used = some e ∧ e ≠ eAgain ∧ e ≠ eBadF) :
    (acceptCallback ee (handleAccept size) w).2.nullFreed = w.nullFreed + 1 := by
  rcases accept_cases ee (handleAccept size) _ _ _ (quiet_handleAccept size) w hw hs with ⟨h1, h2, h3⟩ | ⟨_, e', u, n, _, h1, h2, h3⟩ | ⟨h1, h2, u, h3⟩
  · rcases h with h | ⟨_, h, ha, hb⟩
    · rw [h1] at h; exact absurd h (by simp)
    · rw [h] at h2; simp [ha, hb] at h2
  · rw [h3]
  · rcases h with h | ⟨_, h, _⟩
    · rw [h1] at h; exact absurd h (by simp)
    · rw [h2] at h; exact absurd h (by simp)

/-- C42, deviation: `accept_callback` uses the server socket after its handler; a handler that closes the server because of the error, and releases it in the
close hook, makes it use freed memory. -/
theorem accept_uses_released_server :
    ∃ w : World, Wf w ∧ w.bad = false ∧ w.server = true ∧ 0 ∈ w.opened ∧ (acceptCallback none (shutDownOnError 0) w).2.bad = true := by
  refine ⟨{ ans := fun n => if n = 2 then some (-24) else none, next := 1, opened := [0], added := [0] }, ⟨by simp, by simp, by simp, by simp⟩, rfl, rfl, by simp, ?_⟩
  decide

/- ### Examples -/

/-- A server with its listening socket (descriptor 2) and an event loop (0, 1). -/
def exampleStart (ans : Nat → Option Err) : World := { ans, next := 3, opened := [2, 1, 0], added := [2, 1] }

theorem exampleStart_start (ans) : Start (exampleStart ans) :=
  ⟨⟨by simp [exampleStart], by simp [exampleStart], by simp [exampleStart], by simp [exampleStart]⟩, rfl, rfl, rfl, rfl, fun _ => rfl, by simp [exampleStart], by simp [exampleStart], rfl⟩

/-- A connection is accepted, served, closed; everything is as before. -/
example : ∃ w', Run (exampleStart fun _ => none) [.accept none 100, .close 4, .closed 4] w' ∧ w'.clients = [] ∧ w'.opened = [2, 1, 0] ∧ w'.reading = [4] := by
  refine ⟨_, .snoc (es := [_, _]) _ (.snoc (es := [_]) _ (.snoc (es := []) _ (.nil _) trivial) ?_) ?_, ?_⟩
  · show _ ∧ _ ∧ _; decide
  · show 4 ∈ _; decide
  · decide

/-- The second HTTP timer cannot be created: the client is given up. -/
example : ((acceptCallback none (handleAccept 100) (exampleStart fun n => if n = 9 then some (-24) else none)).2.closing,
    (acceptCallback none (handleAccept 100) (exampleStart fun n => if n = 9 then some (-24) else none)).2.opened) = ([4], [5, 3, 2, 1, 0]) := by decide

/-- The event loop cannot be created completely. -/
example : (eventloopInit { ans := fun n => if n = 3 then some (-12) else none }).2.opened = [] := by decide

example : (serverServe 2 true (exampleStart fun n => if n = 1 then some (-2) else if n = 2 then some (-98) else none)).1 = some (-98) ∧
    (serverServe 2 true { exampleStart (fun n => if n = 1 then some (-2) else if n = 2 then some (-98) else none) with added := [1] }).2.opened = [1, 0] := by decide

end Cio.Resources
