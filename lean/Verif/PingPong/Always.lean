import Verif.PingPong.Run
import Verif.BufferedWrite.Exact
/-
C117: what holds of client and server without exception, also if messages are sent twice.
-/
namespace Cio.PingPong
open BufferedRead (UAct Handler Job World Call)
open StreamSocket (Sys Ev Write step Allowed follow settle answer)
open BufferedWrite (FirstEndsEarly flat)
open Echo (ToldSuccess elem follow_eq settle_eq)

theorem times_add (a b : Nat) (hello : List UInt8) : times a hello ++ times b hello = times (a + b) hello := by
  unfold times
  rw [← List.flatten_append, List.replicate_append_replicate]

/-- No step changes what a write is about. -/
theorem write_chains {H : Handler} {s s' : Sys} {e : Ev} (hs : step H s e = some s') {w' : Write} (hw : w' ∈ s'.writes) : (∃ w ∈ s.writes, w'.chain = w.chain) ∨ ∃ ch, e = .write ch ∧ w'.chain = ch := by
  have same : s'.cur = s.cur → s'.done = s.done → (∃ w ∈ s.writes, w'.chain = w.chain) ∨ ∃ ch, e = .write ch ∧ w'.chain = ch := fun q1 q2 => by
    unfold StreamSocket.Sys.writes at hw
    rw [q1, q2] at hw
    exact Or.inl ⟨w', hw, rfl⟩
  have sock : ∀ {m : Socket.Move}, (Socket.step s.sock m).map (fun k => { s with sock := k }) = some s' → (∃ w ∈ s.writes, w'.chain = w.chain) ∨ ∃ ch, e = .write ch ∧ w'.chain = ch := fun {m} hm => by
    cases hk : Socket.step s.sock m with
    | none => rw [hk] at hm; cases hm
    | some k => rw [hk] at hm; injection hm with hm; subst hm; exact same rfl rfl
  have goes : ∀ {x : Write}, s.cur = some x → (∃ y : Write, y.chain = x.chain ∧ ((s'.cur = none ∧ s'.done = s.done ++ [y]) ∨ (s'.cur = some y ∧ s'.done = s.done))) →
      (∃ w ∈ s.writes, w'.chain = w.chain) ∨ ∃ ch, e = .write ch ∧ w'.chain = ch := fun {x} hx ⟨y, hy1, hy2⟩ => by
    have hall : w' ∈ s.done ∨ w' = y := by
      unfold StreamSocket.Sys.writes at hw
      rcases hy2 with ⟨q1, q2⟩ | ⟨q1, q2⟩ <;> rw [q1, q2] at hw
      · rw [Option.toList_none, List.append_nil] at hw
        exact mem_concat hw
      · exact mem_concat hw
    left
    rcases hall with q | q
    · exact ⟨w', List.mem_append_left _ q, rfl⟩
    · subst q
      exact ⟨x, List.mem_append_right _ (by rw [hx]; exact List.mem_singleton_self x), hy1⟩
  cases e with
  | peerSends d => exact sock hs
  | peerCloses => exact sock hs
  | timeout => exact sock hs
  | enter => exact sock hs
  | leave =>
    unfold step at hs
    dsimp only at hs
    split at hs
    · cases hs
    · exact sock hs
  | user a os =>
    unfold step at hs
    dsimp only at hs
    split at hs
    · cases hs
    cases hb : BufferedRead.step H s.br (.user a) with
    | none => rw [hb] at hs; cases hs
    | some w => rw [hb, Option.bind_some] at hs; obtain ⟨f1, f2, f3, -⟩ := follow_eq hs; exact same f2 f3
  | loop os =>
    unfold step at hs
    dsimp only at hs
    split at hs
    · cases hs
    cases hb : BufferedRead.step H s.br (.loop SUCCESS) with
    | none => rw [hb] at hs; cases hs
    | some w => rw [hb, Option.bind_some] at hs; obtain ⟨f1, f2, f3, -⟩ := follow_eq hs; exact same f2 f3
  | readable r =>
    unfold step at hs
    dsimp only at hs
    cases hk : Socket.step s.sock (.readable true r) with
    | none => rw [hk] at hs; cases hs
    | some k =>
      rw [hk, Option.bind_some] at hs
      split at hs
      · next t er d _ =>
        cases hb : BufferedRead.step H s.br (if er = SUCCESS then .deliver d else .fail er) with
        | none => rw [hb] at hs; cases hs
        | some w => rw [hb] at hs; injection hs with hs; subst hs; exact same rfl rfl
      · injection hs with hs; subst hs; exact same rfl rfl
  | write chain =>
    unfold step at hs
    dsimp only at hs
    split at hs
    · cases hs
    injection hs with hs
    subst hs
    unfold StreamSocket.Sys.writes at hw
    rcases mem_concat hw with q | q
    · exact Or.inl ⟨w', List.mem_append_left _ q, rfl⟩
    · subst q; exact Or.inr ⟨chain, rfl, rfl⟩
  | send r =>
    unfold step at hs
    dsimp only at hs
    split at hs
    · cases hs
    · next x hx =>
      split at hs
      · cases hs
      · cases hk : Socket.step s.sock (.write x.data r true) with
        | none => rw [hk] at hs; cases hs
        | some k =>
          rw [hk, Option.bind_some] at hs
          split at hs
          · exact goes hx (settle_eq hs).2
          · injection hs with hs; subst hs; exact same rfl rfl
          · exact goes hx (settle_eq hs).2
          · cases hs
  | writable er =>
    unfold step at hs
    dsimp only at hs
    cases hk : Socket.step s.sock (.writable er) with
    | none => rw [hk] at hs; cases hs
    | some k =>
      rw [hk, Option.bind_some] at hs
      split at hs
      · next x _ _ _ hx _ => exact goes hx (settle_eq hs).2
      · cases hs

/-- All writes but the last have been successful. -/
def Shape (s : Sys) : Prop := ∃ good rest, s.writes = good ++ rest ∧ (∀ x ∈ good, ToldSuccess x) ∧ rest.length ≤ 1

theorem shape_of {s : Sys} {good rest : List Write} (h1 : s.done = good ++ rest) (h2 : ∀ x ∈ good, ToldSuccess x) (h3 : (s.cur = none ∧ rest.length ≤ 1) ∨ rest = []) : Shape s := by
  refine ⟨good, rest ++ s.cur.toList, ?_, h2, ?_⟩
  · unfold StreamSocket.Sys.writes; rw [h1, List.append_assoc]
  · rcases h3 with ⟨q1, q2⟩ | q
    · rw [q1]; simpa using q2
    · rw [q]; cases s.cur <;> simp

theorem client_shape {hello : List UInt8} {max : Nat} {p : Phase} {s : Sys} (i : Inv hello max p s) : Shape s := by
  obtain ⟨good, rest, g1, g2, g4⟩ := i.hist
  refine shape_of g1 g2 ?_
  cases p with
  | start => exact Or.inr g4.1
  | toWrite d => exact Or.inr g4.1
  | writing => exact Or.inr g4.1
  | toRead => exact Or.inr g4.1
  | reading => exact Or.inr g4.1
  | toConsume => obtain ⟨-, x, e, -⟩ := g4; exact Or.inl ⟨i.cur_none (fun q => by cases q), by rw [e]; exact Nat.le_refl 1⟩
  | toClose => obtain ⟨-, x, e, -⟩ := g4; exact Or.inl ⟨i.cur_none (fun q => by cases q), by rw [e]; exact Nat.le_refl 1⟩
  | stopped =>
    refine Or.inl ⟨i.cur_none (fun q => by cases q), ?_⟩
    rcases g4 with ⟨e, -⟩ | ⟨-, x, e, -⟩
    · rw [e]; exact Nat.zero_le 1
    · rw [e]; exact Nat.le_refl 1

theorem server_cur_none {unit : Nat} {p : Echo.Phase} {s : Sys} (i : Echo.Inv unit p s) (hp : p ≠ .writing) : s.cur = none := by
  cases hx : s.cur with
  | none => rfl
  | some x => exact absurd (i.cur.1 (by rw [hx]; rfl)) hp

theorem server_shape {unit : Nat} {p : Echo.Phase} {s : Sys} (i : Echo.Inv unit p s) : Shape s := by
  obtain ⟨good, rest, g1, g2, -, g4⟩ := i.hist
  refine shape_of g1 g2 ?_
  cases p with
  | start => exact Or.inr g4
  | toWrite d => exact Or.inr g4
  | writing => exact Or.inr g4
  | toRead => exact Or.inr g4
  | reading => exact Or.inr g4
  | toConsume => obtain ⟨x, e, -⟩ := g4; exact Or.inl ⟨server_cur_none i (fun q => by cases q), by rw [e]; exact Nat.le_refl 1⟩
  | stopped =>
    refine Or.inl ⟨server_cur_none i (fun q => by cases q), ?_⟩
    rcases g4 with ⟨e, -⟩ | ⟨x, e, -⟩
    · rw [e]; exact Nat.zero_le 1
    · rw [e]; exact Nat.le_refl 1

theorem writes_ok {quiet : Bool} {H : Handler} {c : Bool} {mem : List UInt8} {s : Sys} (i : StreamSocket.Inv quiet H c mem s) {w : Write} (hw : w ∈ s.writes) : w.Ok := by
  rcases List.mem_append.1 hw with q | q
  · exact (i.done w q).1
  · exact (i.cur w (Option.mem_toList.1 q)).1

theorem out_wires {quiet : Bool} {H : Handler} {c : Bool} {mem : List UInt8} {s : Sys} (i : StreamSocket.Inv quiet H c mem s) : s.sock.outgoing = s.writes.flatMap fun x => x.world.wire := by
  rw [i.out]
  unfold StreamSocket.Sys.writes StreamSocket.wires
  rw [List.flatMap_append]
  cases s.cur with
  | none => rfl
  | some x => show _ ++ x.world.wire = _ ++ (x.world.wire ++ []); rw [List.append_nil]

/-- Successful writes of the greeting put it on the wire once or twice each. -/
theorem good_times {hello : List UInt8} (l : List Write) (hok : ∀ x ∈ l, x.Ok) (ht : ∀ x ∈ l, ToldSuccess x) (hch : ∀ x ∈ l, x.chain = [⟨elem, hello⟩]) :
    ∃ k, l.length ≤ k ∧ l.flatMap (fun x => x.world.wire) = times k hello := by
  induction l with
  | nil => exact ⟨0, Nat.le_refl 0, rfl⟩
  | cons x l ih =>
    obtain ⟨k, hk1, hk2⟩ := ih (fun y hy => hok y (List.mem_cons_of_mem _ hy)) (fun y hy => ht y (List.mem_cons_of_mem _ hy)) (fun y hy => hch y (List.mem_cons_of_mem _ hy))
    obtain ⟨o1, o2, o3⟩ := hok x List.mem_cons_self
    obtain ⟨ch, hc⟩ := ht x List.mem_cons_self
    have hflat : flat x.chain = hello := by rw [hch x List.mem_cons_self]; simp [flat]
    obtain ⟨s1, s2⟩ := BufferedWrite.success_wire_partial x.chain o3 x.answers o2 x.world o1 ch (List.mem_of_getLast? hc)
    rw [hflat] at s1 s2
    rw [List.flatMap_cons, hk2]
    by_cases hf : FirstEndsEarly x.chain x.answers
    · exact ⟨k + 1, Nat.succ_le_succ hk1, by rw [s1 hf, times_succ]⟩
    · exact ⟨k + 2, by simp only [List.length_cons]; omega, by rw [s2 hf, times_succ, times_succ, List.append_assoc]⟩

theorem out_times {quiet : Bool} {H : Handler} {c : Bool} {mem hello : List UInt8} {s : Sys} (i : StreamSocket.Inv quiet H c mem s) (sh : Shape s) (hch : ∀ x ∈ s.writes, x.chain = [⟨elem, hello⟩]) :
    ∃ n, s.sock.outgoing <+: times n hello := by
  obtain ⟨good, rest, g1, g2, g3⟩ := sh
  have hok : ∀ x ∈ s.writes, x.Ok := fun x hx => writes_ok i hx
  rw [g1] at hok hch
  obtain ⟨k, -, hk⟩ := good_times good (fun x hx => hok x (List.mem_append_left _ hx)) g2 (fun x hx => hch x (List.mem_append_left _ hx))
  rw [out_wires i, g1, List.flatMap_append, hk]
  have hrest : rest.flatMap (fun x => x.world.wire) <+: times 2 hello := by
    match rest, g3 with
    | [], _ => exact List.nil_prefix
    | [x], _ =>
      obtain ⟨o1, o2, o3⟩ := hok x (List.mem_append_right _ (List.mem_singleton_self x))
      have hflat : flat x.chain = hello := by rw [hch x (List.mem_append_right _ (List.mem_singleton_self x))]; simp [flat]
      have := BufferedWrite.wire_prefix_of_two x.chain o3 x.answers o2 x.world o1
      rw [hflat] at this
      rw [times_succ, times_succ]
      simpa [times] using this
    | _ :: _ :: _, h => exact absurd h (by simp)
  exact ⟨k + 2, by rw [← times_add]; exact (List.prefix_append_right_inj _).2 hrest⟩

variable {quiet ct : Bool} {memc mems hello : List UInt8} {max : Nat} {x : Pair}

/-- Both sides write nothing but greetings. -/
theorem Together.greets (hc : memc ≠ []) (hs : mems ≠ []) (huc : hello.length ≤ memc.length) (hus : hello.length ≤ mems.length) (h : Together hello max quiet ct memc mems x) :
    (∀ w ∈ x.c.writes, w.chain = [⟨elem, hello⟩]) ∧ ∀ w ∈ x.s.writes, w.chain = [⟨elem, hello⟩] := by
  induction h with
  | init => exact ⟨(fun w hw => nomatch hw), (fun w hw => nomatch hw)⟩
  | @client x p' c' e h hn ha hst hp ih =>
    refine ⟨fun w hw => ?_, ih.2⟩
    rcases write_chains hst hw with ⟨w0, q1, q2⟩ | ⟨ch, q1, q2⟩
    · rw [q2]; exact ih.1 w0 q1
    · subst q1
      rw [q2]
      obtain ⟨r1, r2⟩ := h.reach
      obtain ⟨rc, ic⟩ := reach_both hc huc r1
      obtain ⟨rs, is⟩ := Echo.reach_both hs hus r2
      obtain ⟨n, hn⟩ := out_times (StreamSocket.reach_inv hs rs) (server_shape is) ih.2
      generalize hpc : x.pc = pc at *
      unfold next at hp
      dsimp only at hp
      split at hp
      · split at hp
        · next q => exact q
        · cases hp
      · next d =>
        split at hp
        · next q =>
          obtain ⟨t1, t2⟩ := ic.toWrite d rfl
          have hd : d = hello := by
            rw [t2]
            refine piece hn ((StreamSocket.reads_what_peer_sent hc rc).1.trans (h.net hc hs huc hus).toC) ?_ (ic.enough (Or.inl ⟨d, rfl⟩) t1)
            have hcount := ic.count (fun q => by cases q)
            have hheld : held hello.length x.c.br (.toWrite d) = hello.length := by
              show (if x.c.br.calls = [] then 0 else hello.length) = _
              rw [if_neg t1]
            rw [hheld] at hcount
            exact (Nat.dvd_add_left (Nat.dvd_refl _)).1 ⟨_, hcount⟩
          rw [q, hd]
        · cases hp
      · cases hp
  | @server x p' s' e h hn ha hst hp ih =>
    refine ⟨ih.1, fun w hw => ?_⟩
    rcases write_chains hst hw with ⟨w0, q1, q2⟩ | ⟨ch, q1, q2⟩
    · rw [q2]; exact ih.2 w0 q1
    · subst q1
      rw [q2]
      obtain ⟨r1, r2⟩ := h.reach
      obtain ⟨rc, ic⟩ := reach_both hc huc r1
      obtain ⟨rs, is⟩ := Echo.reach_both hs hus r2
      obtain ⟨n, hn⟩ := out_times (StreamSocket.reach_inv hc rc) (client_shape ic) ih.1
      generalize hps : x.ps = ps at *
      unfold Echo.next at hp
      dsimp only at hp
      split at hp
      · next d =>
        split at hp
        · next q =>
          obtain ⟨t1, t2⟩ := is.toWrite d rfl
          have hd : d = hello := by
            rw [t1]
            exact piece hn ((StreamSocket.reads_what_peer_sent hs rs).1.trans (h.net hc hs huc hus).toS) is.units t2
          rw [q, hd]
        · cases hp
      · cases hp

theorem nonempty {mem : List UInt8} (hne : hello ≠ []) (hu : hello.length ≤ mem.length) : mem ≠ [] := by
  have hpos : 0 < hello.length := List.length_pos_iff.2 hne
  intro q
  rw [q] at hu
  exact absurd hu (by simp; omega)

/-- C117: whatever the network and the operating systems do, all that is ever sent, in either direction, is the greeting over and over, and every successful read, on either side, gives the greeting. -/
theorem only_greetings (hne : hello ≠ []) (huc : hello.length ≤ memc.length) (hus : hello.length ≤ mems.length) (h : Together hello max quiet ct memc mems x) :
    (∃ n, x.c.sock.outgoing <+: times n hello) ∧ (∃ n, x.s.sock.outgoing <+: times n hello) ∧
      (∀ y ∈ x.c.br.calls, y.err = SUCCESS → y.view.take y.num = hello) ∧ ∀ y ∈ x.s.br.calls, y.err = SUCCESS → y.view.take y.num = hello := by
  have hc := nonempty hne huc
  have hs := nonempty hne hus
  obtain ⟨r1, r2⟩ := h.reach
  have net := h.net hc hs huc hus
  obtain ⟨g1, g2⟩ := h.greets hc hs huc hus
  obtain ⟨rc, ic⟩ := reach_both hc huc r1
  obtain ⟨rs, is⟩ := Echo.reach_both hs hus r2
  obtain ⟨n, hn⟩ := out_times (StreamSocket.reach_inv hc rc) (client_shape ic) g1
  obtain ⟨m, hm⟩ := out_times (StreamSocket.reach_inv hs rs) (server_shape is) g2
  obtain ⟨-, -, rd⟩ := StreamSocket.reads_what_peer_sent hc rc
  refine ⟨⟨n, hn⟩, ⟨m, hm⟩, fun y hy he => ?_, fun y hy he => ?_⟩
  · obtain ⟨a1, a2⟩ := rd y hy
    rw [ic.nums y hy he] at a1 ⊢
    exact piece hm (a2.trans net.toC) (ic.units y hy) a1
  · obtain ⟨a, v, q1, q2, q3, q4⟩ := server_reads hs hus r2 y hy he
    rw [q4]
    exact piece hn (q1.trans net.toS) q2 q3

/-- If no write is under way and none has failed, whole greetings have been sent, at least as many as writes were made. -/
theorem whole {quiet : Bool} {H : Handler} {c : Bool} {mem : List UInt8} {s : Sys} (i : StreamSocket.Inv quiet H c mem s) (hcur : s.cur = none) (ht : ∀ w ∈ s.done, ToldSuccess w)
    (hch : ∀ w ∈ s.writes, w.chain = [⟨elem, hello⟩]) : ∃ k, s.done.length ≤ k ∧ s.sock.outgoing = times k hello ∧ (s.done.flatMap Write.asked).length = s.done.length * hello.length := by
  have hw : s.writes = s.done := by unfold StreamSocket.Sys.writes; rw [hcur]; exact List.append_nil _
  rw [hw] at hch
  obtain ⟨k, k1, k2⟩ := good_times s.done (fun x hx => (i.done x hx).1) ht hch
  refine ⟨k, k1, by rw [out_wires i, hw, k2], ?_⟩
  clear k1 k2 ht hw
  generalize s.done = l at hch
  induction l with
  | nil => simp
  | cons y l ih =>
    rw [List.flatMap_cons, List.length_append, ih fun z hz => hch z (List.mem_cons_of_mem _ hz), List.length_cons, Nat.succ_mul]
    have : Write.asked y = hello := by unfold StreamSocket.Write.asked; rw [hch y List.mem_cons_self]; simp [flat]
    rw [this, Nat.add_comm]

/-- C117: client and server never both wait for the other. -/
theorem no_deadlock (hne : hello ≠ []) (huc : hello.length ≤ memc.length) (hus : hello.length ≤ mems.length) (h : Together hello max quiet ct memc mems x) (hq : Quiescent x) :
    ¬ (x.pc = .reading ∧ x.ps = .reading) := by
  rintro ⟨hpc, hps⟩
  have hpos : 0 < hello.length := List.length_pos_iff.2 hne
  have hc := nonempty hne huc
  have hs := nonempty hne hus
  obtain ⟨r1, r2⟩ := h.reach
  obtain ⟨g1, g2⟩ := h.greets hc hs huc hus
  obtain ⟨rc, ic⟩ := reach_both hc huc r1
  obtain ⟨rs, is⟩ := Echo.reach_both hs hus r2
  have oc : x.c.br.closed = false := ic.open' (by rw [hpc]; intro q; cases q)
  have os : x.s.br.closed = false := by
    cases hx : x.s.br.closed with
    | false => rfl
    | true => have := is.closed hx; rw [hps] at this; cases this
  obtain ⟨q1, q2⟩ := hq.toC oc
  obtain ⟨q3, q4⟩ := hq.toS os
  have lc : x.c.br.rb.unread.length < hello.length := by
    rcases at_rest hc huc r1 hq.c with q | ⟨-, -, q⟩ | ⟨q, -⟩ | ⟨q, -⟩
    · rw [hpc] at q; cases q
    · exact q
    · rw [hpc] at q; cases q
    · rw [hpc] at q; cases q
  have ls : x.s.br.rb.unread.length < hello.length := by
    rcases Echo.at_rest hs hus r2 hq.s with q | ⟨-, -, q⟩ | ⟨q, -⟩ | ⟨q, -⟩
    · rw [hps] at q; cases q
    · exact q
    · rw [hps] at q; cases q
    · rw [hps] at q; cases q
  have ec := congrArg List.length ((StreamSocket.reads_what_peer_sent hc rc).2.1 oc)
  have es := congrArg List.length ((StreamSocket.reads_what_peer_sent hs rs).2.1 os)
  rw [q1, q2, List.append_nil, List.length_append] at ec
  rw [q3, q4, List.append_nil, List.length_append] at es
  have hcur1 : x.c.cur = none := ic.cur_none (by rw [hpc]; intro q; cases q)
  have hcur2 : x.s.cur = none := server_cur_none is (by rw [hps]; intro q; cases q)
  have hcount := ic.count (by rw [hpc]; intro q; cases q)
  obtain ⟨good, rest, h1, h2, h4⟩ := ic.hist
  obtain ⟨good', rest', h1', h2', h3', h4'⟩ := is.hist
  rw [hpc] at h4 hcount
  rw [hps] at h4'
  obtain ⟨h4, h5⟩ : rest = [] ∧ good.flatMap Write.asked = hello ++ x.c.br.consumed := h4
  have h4' : rest' = [] := h4'
  rw [h4, List.append_nil] at h1
  rw [h4', List.append_nil] at h1'
  obtain ⟨k, k1, k2, k3⟩ := whole (StreamSocket.reach_inv hc rc) hcur1 (by rw [h1]; exact h2) g1
  obtain ⟨m, m1, m2, m3⟩ := whole (StreamSocket.reach_inv hs rs) hcur2 (by rw [h1']; exact h2') g2
  rw [h1, h5, List.length_append] at k3
  rw [h1', h3'] at m3
  rw [k2, times_length] at es
  rw [m2, times_length] at ec
  rw [h1] at k1
  rw [h1'] at m1
  obtain ⟨u, hu⟩ := is.units
  -- the server has read everything, and has sent at least as much
  have hz : x.s.br.rb.unread.length = 0 := by
    have hd : hello.length ∣ x.s.br.rb.unread.length := (Nat.dvd_add_right ⟨u, hu⟩).1 (by rw [es]; exact ⟨k, Nat.mul_comm _ _⟩)
    exact Nat.eq_zero_of_dvd_of_lt hd ls
  have e1 := Nat.mul_le_mul_right hello.length k1
  have e2 := Nat.mul_le_mul_right hello.length m1
  omega

/-- C117: when both programs have started, nothing failed and nothing happens any more, the client is done: it has read `max` times (once if `max` is 0), each time the greeting, and has closed; both sides
have sent whole greetings, at least that many. -/
theorem finishes (hne : hello ≠ []) (huc : hello.length ≤ memc.length) (hus : hello.length ≤ mems.length) (h : Together hello max quiet ct memc mems x)
    (hq : Quiescent x) (hpc : x.pc ≠ .start) (hps : x.ps ≠ .start) (hcur : x.c.cur = none ∧ x.s.cur = none) (hw : (∀ w ∈ x.c.done, ToldSuccess w) ∧ ∀ w ∈ x.s.done, ToldSuccess w) (ho : OnlyEof x) :
    x.c.br.closed = true ∧ x.c.br.calls.length = Nat.max 1 max ∧ (∀ y ∈ x.c.br.calls, y.err = SUCCESS ∧ y.view.take y.num = hello) ∧
      ∃ k m, Nat.max 1 max ≤ k ∧ Nat.max 1 max ≤ m ∧ x.c.sock.outgoing = times k hello ∧ x.s.sock.outgoing = times m hello := by
  have hpos : 0 < hello.length := List.length_pos_iff.2 hne
  have hc := nonempty hne huc
  have hs := nonempty hne hus
  obtain ⟨r1, r2⟩ := h.reach
  obtain ⟨sv1, sv2⟩ := server_stays huc hus hc hs h ho
  have hclosed : x.c.br.closed = true := by
    rcases at_rest hc huc r1 hq.c with q | ⟨q, -⟩ | ⟨q, -⟩ | ⟨-, q | ⟨w, hw1, hw2⟩⟩
    · exact absurd q hpc
    · rcases Echo.at_rest hs hus r2 hq.s with g | ⟨g, -⟩ | ⟨g, -⟩ | ⟨-, g | ⟨w, hw1, hw2⟩⟩
      · exact absurd g hps
      · exact absurd ⟨q, g⟩ (no_deadlock hne huc hus h hq)
      · have := (Echo.reach_both hs hus r2).2.cur.2 g
        rw [hcur.2] at this; cases this
      · exact sv2 g
      · exact absurd (hw.2 w hw1) hw2
    · have := (reach_both hc huc r1).2.cur.2 q
      rw [hcur.1] at this; cases this
    · exact q
    · exact absurd (hw.1 w hw1) hw2
  obtain ⟨f1, f2, f3, f4, f5⟩ := finished hc huc r1 hclosed sv1 hw.1
  obtain ⟨-, -, g3, -⟩ := only_greetings hne huc hus h
  obtain ⟨g1, g2⟩ := h.greets hc hs huc hus
  obtain ⟨k, k1, k2, k3⟩ := whole (StreamSocket.reach_inv hc (proper_user hc huc r1)) hcur.1 hw.1 g1
  obtain ⟨m, m1, m2, m3⟩ := whole (StreamSocket.reach_inv hs (Echo.proper_user hs hus r2)) hcur.2 hw.2 g2
  refine ⟨hclosed, f1, fun y hy => ⟨sv1 y hy, g3 y hy (sv1 y hy)⟩, k, m, ?_, ?_, k2, m2⟩
  · rw [f2, Nat.mul_comm] at k3
    exact Nat.le_trans (Nat.le_of_eq (Nat.eq_of_mul_eq_mul_right hpos k3)) k1
  · have := Nat.le_trans f5 (h.net hc hs huc hus).toC.length_le
    rw [m2, times_length, Nat.mul_comm m] at this
    exact Nat.le_of_mul_le_mul_left this hpos

end Cio.PingPong
