import Verif.WsTcp.Model
/-
One side: what a step does to the stream, the WebSocket and the socket; the stream is used properly.
-/
namespace Cio.WsTcp
open StreamSocket (Sys Os Write)
open WsStream (Env handler jobOf deliveries)
open BufferedRead (World)
open Socket (St Obs)

/-- The pieces in which data was handed to the stream. -/
def pieces (l : List Obs) : List (List UInt8) := l.filterMap fun o => match o with | .readDone _ e d => if e = SUCCESS then some d else none | _ => none

theorem pieces_append (l m : List Obs) : pieces (l ++ m) = pieces l ++ pieces m := by unfold pieces; exact List.filterMap_append

/-- What a move of the socket did: data handed over (`p`), data (`d`) or the end (`f`) of the peer. -/
structure Eff (p : List (List UInt8)) (d : List UInt8) (f : Bool) (s k : St) : Prop where
  log : ∃ l, k.log = s.log ++ l ∧ pieces l = p ∧ Socket.sent l = d ∧ (.peerClosed ∈ l ↔ f = true)
  out : s.outgoing <+: k.outgoing
  stack : (∀ i ∈ s.stack, i = .user) → ∀ i ∈ k.stack, i = .user

theorem Eff.of {p : List (List UInt8)} {d : List UInt8} {f : Bool} {s k : St} (l : List Obs) (h : k.log = s.log ++ l) (hp : pieces l = p) (hd : Socket.sent l = d)
    (hf : .peerClosed ∈ l ↔ f = true) (ho : s.outgoing <+: k.outgoing)
    (hs : (∀ i ∈ s.stack, i = .user) → ∀ i ∈ k.stack, i = .user := by intro h; simpa [StreamSocket.dead] using h) : Eff p d f s k := ⟨⟨l, h, hp, hd, hf⟩, ho, hs⟩

theorem Eff.trans {p : List (List UInt8)} {d : List UInt8} {f : Bool} {s k m : St} (h : Eff p d f s k) (g : Eff [] [] false k m) : Eff p d f s m := by
  obtain ⟨⟨l, h1, h2, h3, h4⟩, h5, h6⟩ := h
  obtain ⟨⟨l', g1, g2, g3, g4⟩, g5, g6⟩ := g
  refine ⟨⟨l ++ l', by rw [g1, h1, List.append_assoc], by rw [pieces_append, h2, g2, List.append_nil], by rw [Socket.sent_append, h3, g3, List.append_nil], ?_⟩, h5.trans g5, fun q => g6 (h6 q)⟩
  rw [List.mem_append, h4, g4]; simp

theorem Eff.refl (s : St) : Eff [] [] false s s := ⟨⟨[], by simp, rfl, rfl, by simp⟩, List.prefix_rfl, id⟩

/-- What the stream saw of a step. -/
inductive Saw (H : BufferedRead.Handler) (s : Sys) (x : StreamSocket.Ev) (s' : Sys) : Prop
  | user (a : BufferedRead.UAct) (os : Os) (hx : x = .user a os) (h : BufferedRead.step H s.br (.user a) = some s'.br) (he : Eff [] [] false s.sock s'.sock)
  | loop (os : Os) (hx : x = .loop os) (h : BufferedRead.step H s.br (.loop SUCCESS) = some s'.br) (he : Eff [] [] false s.sock s'.sock)
  | data (d : List UInt8) (h : BufferedRead.step H s.br (.deliver d) = some s'.br) (he : Eff [d] [] false s.sock s'.sock) (hp : fromPeer x = false)
  | fail (err : Err) (h : BufferedRead.step H s.br (.fail err) = some s'.br) (he : Eff [] [] false s.sock s'.sock) (hp : fromPeer x = false)
  | sent (d : List UInt8) (hx : x = .peerSends d) (h : s'.br = s.br) (he : Eff [] d false s.sock s'.sock) (ho : s'.sock.outgoing = s.sock.outgoing)
  | fin (hx : x = .peerCloses) (h : s'.br = s.br) (he : Eff [] [] true s.sock s'.sock) (ho : s'.sock.outgoing = s.sock.outgoing)
  | rest (h : s'.br = s.br) (he : Eff [] [] false s.sock s'.sock) (hp : fromPeer x = false) (ho : s.br.closed = true → s'.sock.outgoing = s.sock.outgoing)

theorem leave_tail {s k : St} (h : Socket.step s .leave = some k) : ∃ st, s.stack = .user :: st ∧ k = { s with stack := st } := by
  obtain ⟨st, hst⟩ := (StreamSocket.sock_stack h).2 (Or.inl rfl)
  have hu := StreamSocket.sock_ub h
  unfold Socket.step at h
  rw [if_neg (by rw [hu]; simp), hst] at h
  cases h; exact ⟨st, hst, rfl⟩

theorem follow_eff {s s' : Sys} {br : World} {os : Os} (hos : os.soon = false) (h : StreamSocket.follow s br os = some s') : s'.br = br ∧ Eff [] [] false s.sock s'.sock := by
  unfold StreamSocket.follow at h
  cases h1 : StreamSocket.asks s br with
  | none => rw [h1] at h; cases h
  | some k =>
    rw [h1, Option.bind_some] at h
    cases h2 : StreamSocket.closes s br os k with
    | none => rw [h2] at h; cases h
    | some k2 =>
      rw [h2] at h; cases h
      refine ⟨rfl, ?_⟩
      have e1 : Eff [] [] false s.sock k := by
        unfold StreamSocket.asks at h1
        split at h1
        · obtain ⟨-, g⟩ := StreamSocket.sock_read h1
          subst g
          exact Eff.of [.readStarted s.sock.nextRead] rfl rfl rfl (by simp) List.prefix_rfl
        · cases h1; exact Eff.refl _
      refine e1.trans ?_
      unfold StreamSocket.closes at h2
      split at h2
      · rw [hos] at h2
        obtain ⟨-, g⟩ := StreamSocket.sock_close h2
        rcases g with ⟨-, g⟩ | ⟨cb, g⟩ <;> subst g
        · exact Eff.of [.closeCalled] rfl rfl rfl (by simp) List.prefix_rfl
        · exact Eff.of [.closeCalled, .fdClosed, .hook] (by simp [StreamSocket.dead]) rfl rfl (by simp) List.prefix_rfl
      · cases h2; exact Eff.refl _

theorem saw {quiet : Bool} {H : BufferedRead.Handler} {c : Bool} {mem : List UInt8} {s s' : Sys} {x : StreamSocket.Ev} (h : StreamSocket.Inv quiet H c mem s)
    (ha : StreamSocket.Allowed quiet s x) (hs : StreamSocket.step H s x = some s') : Saw H s x s' := by
  obtain ⟨hb, -, -, -⟩ := Socket.reach_inv (StreamSocket.sockReach h.sock)
  cases x with
  | peerSends d =>
    unfold StreamSocket.step at hs
    dsimp only at hs
    cases hk : Socket.step s.sock (.peerSends d) with
    | none => rw [hk] at hs; cases hs
    | some k =>
      rw [hk] at hs; cases hs
      obtain ⟨-, ek⟩ := StreamSocket.sock_peer hk
      subst ek
      exact .sent d rfl rfl (Eff.of [.peerSent d] rfl rfl (List.append_nil d) (by simp) List.prefix_rfl) rfl
  | peerCloses =>
    unfold StreamSocket.step at hs
    dsimp only at hs
    cases hk : Socket.step s.sock .peerCloses with
    | none => rw [hk] at hs; cases hs
    | some k =>
      rw [hk] at hs; cases hs
      have ek := StreamSocket.sock_fin hk
      subst ek
      exact .fin rfl rfl (Eff.of [.peerClosed] rfl rfl rfl (by simp) List.prefix_rfl) rfl
  | enter =>
    unfold StreamSocket.step at hs
    dsimp only at hs
    cases hk : Socket.step s.sock .enter with
    | none => rw [hk] at hs; cases hs
    | some k =>
      rw [hk] at hs; cases hs
      have ek := StreamSocket.sock_enter hk
      subst ek
      exact .rest rfl (Eff.of [] (by simp) rfl rfl (by simp) List.prefix_rfl) rfl (fun _ => rfl)
  | leave =>
    unfold StreamSocket.step at hs
    dsimp only at hs
    split at hs
    · cases hs
    · cases hk : Socket.step s.sock .leave with
      | none => rw [hk] at hs; cases hs
      | some k =>
        rw [hk] at hs; cases hs
        obtain ⟨st, est, ek⟩ := leave_tail hk
        subst ek
        exact .rest rfl (Eff.of [] (by simp) rfl rfl (by simp) List.prefix_rfl (fun q i hi => q i (by rw [est]; exact List.mem_cons_of_mem _ hi))) rfl (fun _ => rfl)
  | timeout =>
    unfold StreamSocket.step at hs
    dsimp only at hs
    cases hk : Socket.step s.sock .timeout with
    | none => rw [hk] at hs; cases hs
    | some k =>
      rw [hk] at hs; cases hs
      have hal : s.sock.timerArmed = true → s.sock.alive = true := by
        intro g
        cases hal : s.sock.alive with
        | true => rfl
        | false => rw [(hb.dead hal).2.1] at g; cases g
      obtain ⟨-, ek⟩ := StreamSocket.sock_timeout hal hk
      subst ek
      exact .rest rfl (Eff.of [.fdClosed, .hook] rfl rfl rfl (by simp) List.prefix_rfl) rfl (fun _ => rfl)
  | user a os =>
    unfold StreamSocket.step at hs
    dsimp only at hs
    split at hs
    · cases hs
    · cases hbr : BufferedRead.step H s.br (.user a) with
      | none => rw [hbr] at hs; cases hs
      | some br =>
        rw [hbr, Option.bind_some] at hs
        obtain ⟨q1, q2⟩ := follow_eff ha hs
        exact .user a os rfl (by rw [q1]; exact hbr) q2
  | loop os =>
    unfold StreamSocket.step at hs
    dsimp only at hs
    split at hs
    · cases hs
    · cases hbr : BufferedRead.step H s.br (.loop SUCCESS) with
      | none => rw [hbr] at hs; cases hs
      | some br =>
        rw [hbr, Option.bind_some] at hs
        obtain ⟨q1, q2⟩ := follow_eff ha hs
        exact .loop os rfl (by rw [q1]; exact hbr) q2
  | readable r =>
    obtain ⟨ha1, ha2⟩ := ha
    unfold StreamSocket.step at hs
    dsimp only at hs
    cases hk : Socket.step s.sock (.readable true r) with
    | none => rw [hk] at hs; cases hs
    | some k =>
      rw [hk, Option.bind_some] at hs
      by_cases hcl : s.br.closed = true
      · have hlive : s.sock.inLoop = true → s.sock.alive = true := by
          intro g
          cases hal : s.sock.alive with
          | true => rfl
          | false => rw [(hb.dead hal).1] at g; cases g
        obtain ⟨q1, -⟩ := StreamSocket.sock_readable_reg hk
        have hcb : s.sock.readCb = .drain := (hb.drain (hlive q1)).1 (h.closed.1 hcl)
        obtain ⟨-, hd⟩ := StreamSocket.sock_drain hcb (fun _ g => hlive g) hk
        rcases hd with ⟨d, rest, -, ek⟩ | ek
        · have hans : StreamSocket.answer s.sock k = none := by rw [StreamSocket.answer_eq (l := []) (by rw [ek]; simp)]; rfl
          rw [hans] at hs
          cases hs
          subst ek
          exact .rest rfl (Eff.of [] (by simp) rfl rfl (by simp) List.prefix_rfl) rfl (fun _ => rfl)
        · have hans : StreamSocket.answer s.sock k = some .hook := by rw [StreamSocket.answer_eq (l := [.fdClosed, .hook]) (by rw [ek]; rfl)]; rfl
          rw [hans] at hs
          cases hs
          subst ek
          exact .rest rfl (Eff.of [.fdClosed, .hook] rfl rfl rfl (by simp) List.prefix_rfl) rfl (fun _ => rfl)
      · have hcl : s.br.closed = false := by simpa using hcl
        obtain ⟨hgot, -⟩ := StreamSocket.open_readable h hcl hk
        cases hgot with
        | again r t n hp hr =>
          have hans : StreamSocket.answer s.sock { s.sock with regIn := false } = none := by rw [StreamSocket.answer_eq (l := []) (by simp)]; rfl
          rw [hans] at hs
          cases hs
          exact .rest rfl (Eff.of [] (by simp) rfl rfl (by simp) List.prefix_rfl) rfl (fun _ => rfl)
        | error t n err hp =>
          have he := ha1 err rfl
          have hne : err ≠ SUCCESS := fun g => by rw [g] at he; exact absurd he (by decide)
          rw [StreamSocket.answer_eq (l := [.readDone t err []]) rfl] at hs
          dsimp only [List.getLast?_singleton] at hs
          rw [if_neg hne] at hs
          cases hbr : BufferedRead.step H s.br (.fail err) with
          | none => rw [hbr] at hs; cases hs
          | some br =>
            rw [hbr] at hs; cases hs
            exact .fail err hbr (Eff.of [.readDone t err []] rfl (by simp [pieces, hne]) rfl (by simp) List.prefix_rfl) rfl
        | eof t n m hp he =>
          rw [StreamSocket.answer_eq (l := [.readDone t EOF []]) rfl] at hs
          dsimp only [List.getLast?_singleton] at hs
          rw [if_neg (by decide)] at hs
          cases hbr : BufferedRead.step H s.br (.fail EOF) with
          | none => rw [hbr] at hs; cases hs
          | some br =>
            rw [hbr] at hs; cases hs
            exact .fail EOF hbr (Eff.of [.readDone t EOF []] rfl rfl rfl (by simp) List.prefix_rfl) rfl
        | data t n m d rest hp hd h1 h2 =>
          rw [StreamSocket.answer_eq (l := [.readDone t SUCCESS d]) rfl] at hs
          dsimp only [List.getLast?_singleton] at hs
          rw [if_pos rfl] at hs
          cases hbr : BufferedRead.step H s.br (.deliver d) with
          | none => rw [hbr] at hs; cases hs
          | some br =>
            rw [hbr] at hs; cases hs
            exact .data d hbr (Eff.of [.readDone t SUCCESS d] rfl rfl rfl (by simp) List.prefix_rfl) rfl
  | write chain =>
    unfold StreamSocket.step at hs
    dsimp only at hs
    split at hs
    · cases hs
    · cases hs; exact .rest rfl (Eff.refl _) rfl (fun _ => rfl)
  | send r =>
    unfold StreamSocket.step at hs
    dsimp only at hs
    cases hcu : s.cur with
    | none => rw [hcu] at hs; cases hs
    | some y =>
      rw [hcu] at hs
      dsimp only at hs
      split at hs
      · cases hs
      · next hask =>
        have hopen : ¬ s.br.closed = true := by
          intro hq
          rcases h.closedCur hq with g | ⟨g, -⟩
          · rw [hcu] at g; cases g
          · exact hask g
        cases hk : Socket.step s.sock (.write y.data r true) with
        | none => rw [hk] at hs; cases hs
        | some k =>
          rw [hk, Option.bind_some] at hs
          obtain ⟨-, hsent⟩ := StreamSocket.sock_write hk
          cases hsent with
          | now n m hmle =>
            rw [StreamSocket.answer_eq (l := [.writeStarted s.sock.nextWrite y.data, .writeDone s.sock.nextWrite SUCCESS m]) (by simp)] at hs
            obtain ⟨q1, q2⟩ := StreamSocket.settle_sock hs
            refine .rest q2 ?_ rfl (fun g => absurd g hopen)
            rw [q1]
            exact Eff.of [.writeStarted s.sock.nextWrite y.data, .writeDone s.sock.nextWrite SUCCESS m] (by simp) rfl rfl (by simp) (List.prefix_append _ _)
          | later =>
            rw [StreamSocket.answer_eq (l := [.writeStarted s.sock.nextWrite y.data]) rfl] at hs
            dsimp only [List.getLast?_singleton] at hs
            cases hs
            exact .rest rfl (Eff.of [.writeStarted s.sock.nextWrite y.data] rfl rfl rfl (by simp) List.prefix_rfl) rfl (fun _ => rfl)
          | fails err =>
            rw [StreamSocket.answer_eq (l := [.writeRefused s.sock.nextWrite err]) rfl] at hs
            dsimp only [List.getLast?_singleton] at hs
            obtain ⟨q1, q2⟩ := StreamSocket.settle_sock hs
            refine .rest q2 ?_ rfl (fun g => absurd g hopen)
            rw [q1]
            exact Eff.of [.writeRefused s.sock.nextWrite err] rfl rfl rfl (by simp) List.prefix_rfl
  | writable err =>
    unfold StreamSocket.step at hs
    dsimp only at hs
    cases hk : Socket.step s.sock (.writable err) with
    | none => rw [hk] at hs; cases hs
    | some k =>
      rw [hk, Option.bind_some] at hs
      obtain ⟨-, -, ek⟩ := StreamSocket.sock_writable (fun g => h.cb (h.reg.symm.trans g)) hk
      subst ek
      cases hcu : s.cur with
      | none => rw [hcu] at hs; cases hs
      | some y =>
        rw [hcu, StreamSocket.answer_eq (l := [.writeDone s.sock.pendWrite (err.getD SUCCESS) 0]) rfl] at hs
        dsimp only [List.getLast?_singleton] at hs
        obtain ⟨q1, q2⟩ := StreamSocket.settle_sock hs
        refine .rest q2 ?_ rfl (fun _ => by rw [q1])
        rw [q1]
        exact Eff.of [.writeDone s.sock.pendWrite (err.getD SUCCESS) 0] rfl rfl rfl (by simp) List.prefix_rfl

theorem run_append {e : Env} (xs ys : List WsStream.Ev) {w w' w'' : World} (h : WsStream.run e w xs = some w') (g : WsStream.run e w' ys = some w'') :
    WsStream.run e w (xs ++ ys) = some w'' := by
  induction xs generalizing w with
  | nil => cases h; exact g
  | cons x xs ih =>
    simp only [WsStream.run, List.cons_append, Option.bind_eq_bind] at h ⊢
    cases hx : WsStream.step e w x with
    | none => rw [hx] at h; cases h
    | some w1 => rw [hx, Option.bind_some] at h; rw [Option.bind_some]; exact ih h

theorem run_one {e : Env} {x : WsStream.Ev} {w w' : World} (h : WsStream.step e w x = some w') : WsStream.run e w [x] = some w' := by
  simp only [WsStream.run, h, Option.bind_eq_bind, Option.bind_some]

theorem deliveries_append (xs ys : List WsStream.Ev) : deliveries (xs ++ ys) = deliveries xs ++ deliveries ys := by unfold deliveries; exact List.filterMap_append

theorem Saw.stack {H : BufferedRead.Handler} {s s' : Sys} {x : StreamSocket.Ev} (h : Saw H s x s') (q : ∀ i ∈ s.sock.stack, i = .user) : ∀ i ∈ s'.sock.stack, i = .user := by
  cases h with
  | user a os hx hb he => exact he.stack q
  | loop os hx hb he => exact he.stack q
  | data d hb he hx => exact he.stack q
  | fail err hb he hx => exact he.stack q
  | sent d hx hb he ho => exact he.stack q
  | fin hx hb he ho => exact he.stack q
  | rest hb he hx ho => exact he.stack q

/-- One side is a WebSocket on a stream as `Cio.WsStream` has it, fed with the pieces the socket handed over, and a stream on a socket as `Cio.StreamSocket` has it;
that the stream is used properly follows. -/
theorem end_reach {quiet : Bool} {e : Env} {c : Bool} {mem : List UInt8} (hmem : 125 ≤ mem.length) {s : Sys} (h : End quiet e c mem s) :
    StreamSocket.Reach quiet (handler e) c mem s ∧ ∃ xs, WsStream.Reach e mem xs s.br ∧ deliveries xs = pieces s.sock.log := by
  have hne : mem ≠ [] := fun g => by rw [g] at hmem; exact absurd hmem (by decide)
  induction h with
  | init => exact ⟨.init, [], rfl, rfl⟩
  | @step s s' x h ha hp hs hc ih =>
    obtain ⟨hr, xs, hxs, hd⟩ := ih
    have hi := StreamSocket.reach_inv hne hr
    have key : ∃ xs, WsStream.Reach e mem xs s'.br ∧ deliveries xs = pieces s'.sock.log := by
      have one : ∀ (y : WsStream.Ev) (p : List (List UInt8)), WsStream.step e s.br y = some s'.br → deliveries [y] = p → (∃ d f, Eff p d f s.sock s'.sock) →
          ∃ xs, WsStream.Reach e mem xs s'.br ∧ deliveries xs = pieces s'.sock.log := by
        rintro y p hy hyd ⟨d, f, ⟨l, l1, l2, -, -⟩, -, -⟩
        refine ⟨xs ++ [y], run_append xs [y] hxs (run_one hy), ?_⟩
        rw [deliveries_append, hd, l1, pieces_append, l2, hyd]
      have none' : ∀ d f, s'.br = s.br → Eff [] d f s.sock s'.sock → ∃ xs, WsStream.Reach e mem xs s'.br ∧ deliveries xs = pieces s'.sock.log := by
        rintro d f hb ⟨⟨l, l1, l2, -, -⟩, -, -⟩
        refine ⟨xs, by rw [hb]; exact hxs, ?_⟩
        rw [hd, l1, pieces_append, l2, List.append_nil]
      cases saw hi ha hs with
      | user a os hx hb he =>
        subst hx
        cases a with
        | read j =>
          obtain ⟨p1, p2, p3⟩ := hp
          refine one .next [] ?_ rfl ⟨_, _, he⟩
          show (if _ then _ else _) = _
          rw [if_pos ⟨p1, p2⟩, ← p3]; exact hb
        | consume n => exact absurd hp id
        | close => exact one .close [] hb rfl ⟨_, _, he⟩
      | loop os hx hb he => exact one (.loop SUCCESS) [] hb rfl ⟨_, _, he⟩
      | data d hb he hx => exact one (.deliver d) [d] hb rfl ⟨_, _, he⟩
      | fail err hb he hx => exact one (.fail err) [] hb rfl ⟨_, _, he⟩
      | sent d hx hb he ho => exact none' _ _ hb he
      | fin hx hb he ho => exact none' _ _ hb he
      | rest hb he hx ho => exact none' _ _ hb he
    refine ⟨.step hr ha hs ?_ hc, key⟩
    obtain ⟨ys, hys, -⟩ := key
    exact (WsStream.stream_used_properly e mem hmem ys _ hys).1

end Cio.WsTcp
