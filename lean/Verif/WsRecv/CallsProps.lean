import Verif.WsRecv.Calls
import Verif.WsRecv.Props
import Verif.WsStream.Props
/-
Property theorems: the arguments of the application's read handler (C91).
-/
namespace Cio.WsRecv

/-- A call of the read handler that is not the last one for its frame. -/
def Unfinished (x : Out) : Prop := ∃ n d lf b, x = .chunk n d false lf b

/-- A call of the read handler. -/
def IsChunk (x : Out) : Prop := ∃ n d lc lf b, x = .chunk n d lc lf b

/-- `l` does not end within a frame. -/
def Boundary (l : List Out) : Prop := ∀ q x, l = q ++ [x] → ¬ Unfinished x

/-- The arguments of the read handler in a sequence of visible actions are consistent:
* each call belongs to a frame: the calls for this frame before it (`cs`) come directly before it and have the same frame length, the same `last_frame` and the same
  `is_binary`; all bytes for this frame together are at most the frame length, and the call is marked as the last chunk exactly if they are all; a call without data is
  made only for an empty frame;
* behind a call that is not the last for its frame comes the next one for this frame, or the connection fails, and that is all;
* the frames of a message are all binary or all text: the next call behind a frame that is not the last one of its message has the same `is_binary`. -/
structure Consistent (outs : List Out) : Prop where
  chunks : ∀ pre n d lc lf b post, outs = pre ++ .chunk n d lc lf b :: post →
    ∃ (before : List Out) (cs : List (List UInt8)), pre = before ++ cs.map (fun c => .chunk n c false lf b) ∧ Boundary before ∧
      cs.flatten.length + d.length ≤ n ∧ (lc = true ↔ cs.flatten.length + d.length = n) ∧ (d = [] → n = 0)
  goesOn : ∀ pre n d lf b x post, outs = pre ++ .chunk n d false lf b :: x :: post →
    (∃ d' lc, x = .chunk n d' lc lf b) ∨ ((∃ status, x = .fail status) ∧ post = [])
  messages : ∀ pre n d lc lf b between n' d' lc' lf' b' post, outs = pre ++ .chunk n d lc lf b :: (between ++ .chunk n' d' lc' lf' b' :: post) →
    (∀ x ∈ between, ¬ IsChunk x) → lf = false → b' = b

theorem scan_not_ended {s s' : Sc} {x : Out} (h : scan s x = some s') : s.ended = false := by
  unfold scan at h
  cases he : s.ended with
  | false => rfl
  | true => rw [he] at h; simp at h

theorem scanAll_split {s s' : Sc} {a b : List Out} (h : scanAll s (a ++ b) = some s') : ∃ m, scanAll s a = some m ∧ scanAll m b = some s' := by
  rw [scanAll_append] at h
  cases e : scanAll s a with
  | none => rw [e] at h; cases h
  | some m => rw [e] at h; exact ⟨m, rfl, h⟩

theorem scanAll_cons {s s' : Sc} {x : Out} {l : List Out} (h : scanAll s (x :: l) = some s') : ∃ m, scan s x = some m ∧ scanAll m l = some s' := by
  unfold scanAll at h
  cases e : scan s x with
  | none => rw [e] at h; cases h
  | some m => rw [e] at h; exact ⟨m, rfl, h⟩

theorem boundary_nil : Boundary [] := by intro q x h; cases q <;> cases h

theorem boundary_snoc {l : List Out} {x : Out} (h : ¬ Unfinished x) : Boundary (l ++ [x]) := by
  intro q y he
  obtain ⟨-, h2⟩ := List.append_inj' he rfl
  injection h2 with h2
  rw [← h2]; exact h

/-- How much of the frame in progress has been seen. -/
def gotOf : Option (Nat × Nat × Bool × Bool) → Nat
  | none => 0
  | some q => q.2.1

/-- What a chunk does to the acceptor. -/
theorem scan_chunk {s s' : Sc} {n : Nat} {d : List UInt8} {lc lf b : Bool} (h : scan s (.chunk n d lc lf b) = some s') :
    s' = ⟨if lc then none else some (n, gotOf s.cur + d.length, lf, b), if lc && lf then none else some b, false⟩ ∧
    gotOf s.cur + d.length ≤ n ∧ (lc = true ↔ gotOf s.cur + d.length = n) ∧ (d = [] → n = 0) ∧
    (s.msg = none ∨ s.msg = some b) ∧ ∀ q, s.cur = some q → q.1 = n ∧ q.2.2.1 = lf ∧ q.2.2.2 = b ∧ s.msg = some b := by
  have he := scan_not_ended h
  unfold scan at h
  rw [he] at h
  simp only [Bool.false_eq_true, if_false] at h
  cases hc : s.cur with
  | none =>
    rw [hc] at h
    dsimp only at h ⊢
    split at h
    · next hq =>
      obtain ⟨q1, q2, q3, q4⟩ := hq
      injection h with h
      refine ⟨?_, by simp only [gotOf]; omega, ?_, q4, q1, fun q hq => by cases hq⟩
      · rw [← h]; simp [gotOf]
      · rw [q3]; simp [gotOf]
    · cases h
  | some q =>
    obtain ⟨n', g, lf', b'⟩ := q
    rw [hc] at h
    dsimp only at h ⊢
    split at h
    · next hq =>
      obtain ⟨rfl, rfl, rfl, q4, q5, q6, q7⟩ := hq
      injection h with h
      refine ⟨h.symm, q5, ?_, fun hd => absurd hd q7, .inr q4, fun q hq => ?_⟩
      · rw [q6]; simp [gotOf]
      · cases hq; exact ⟨rfl, rfl, rfl, q4⟩
    · cases h

/-- What other actions do to the acceptor. -/
theorem scan_other {s s' : Sc} {x : Out} (h : scan s x = some s') (hx : ¬ IsChunk x) : s'.msg = s.msg ∧ (s'.ended = false → s' = s ∧ s.cur = none) ∧
    (s.cur ≠ none → s'.ended = true ∧ ∃ status, x = .fail status) := by
  have he := scan_not_ended h
  unfold scan at h
  rw [he] at h
  simp only [Bool.false_eq_true, if_false] at h
  cases x with
  | chunk n d lc lf b => exact absurd ⟨n, d, lc, lf, b, rfl⟩ hx
  | fail st => injection h with h; subst h; exact ⟨rfl, fun h => (nomatch h), fun _ => ⟨rfl, st, rfl⟩⟩
  | control k d =>
    dsimp only at h; split at h
    · next hc => injection h with h; subst h; exact ⟨rfl, fun _ => ⟨rfl, hc⟩, fun q => absurd hc q⟩
    · cases h
  | pong d =>
    dsimp only at h; split at h
    · next hc => injection h with h; subst h; exact ⟨rfl, fun _ => ⟨rfl, hc⟩, fun q => absurd hc q⟩
    · cases h
  | closeReply st r =>
    dsimp only at h; split at h
    · next hc => injection h with h; subst h; exact ⟨rfl, fun h => (nomatch h), fun q => absurd hc q⟩
    · cases h
  | closed =>
    dsimp only at h; split at h
    · next hc => injection h with h; subst h; exact ⟨rfl, fun h => (nomatch h), fun q => absurd hc q⟩
    · cases h
  | ub =>
    dsimp only at h; split at h
    · next hc => injection h with h; subst h; exact ⟨rfl, fun h => (nomatch h), fun q => absurd hc q⟩
    · cases h

theorem scan_other_cur {s s' : Sc} {x : Out} (h : scan s x = some s') (hx : ¬ IsChunk x) : s'.cur = s.cur := by
  have he := scan_not_ended h
  unfold scan at h
  rw [he] at h
  simp only [Bool.false_eq_true, if_false] at h
  cases x with
  | chunk n d lc lf b => exact absurd ⟨n, d, lc, lf, b, rfl⟩ hx
  | fail st => injection h with h; rw [← h]
  | _ =>
    dsimp only at h; split at h
    · injection h with h; rw [← h]
    · cases h

theorem not_unfinished_other {x : Out} (hx : ¬ IsChunk x) : ¬ Unfinished x := by
  rintro ⟨n, d, lf, b, rfl⟩; exact hx ⟨n, d, false, lf, b, rfl⟩

/-- The frame in progress according to the acceptor. -/
theorem scan_frame {s : Sc} {outs : List Out} (h : scanAll {} outs = some s) (he : s.ended = false) :
    (s.cur = none → Boundary outs) ∧
    ∀ n g lf b, s.cur = some (n, g, lf, b) → ∃ (before : List Out) (cs : List (List UInt8)), outs = before ++ cs.map (fun c => .chunk n c false lf b) ∧ Boundary before ∧ cs.flatten.length = g := by
  induction outs using List.reverseRecOn generalizing s with
  | nil =>
    injection h with h
    subst h
    exact ⟨fun _ => boundary_nil, fun n g lf b hc => by cases hc⟩
  | append_singleton l x ih =>
    obtain ⟨m, h1, h2⟩ := scanAll_split h
    obtain ⟨s', h2', h3⟩ := scanAll_cons h2
    clear h2
    injection h3 with h3
    subst h3
    have h2 := h2'
    clear h2'
    have hm := scan_not_ended h2
    obtain ⟨i1, i2⟩ := ih h1 hm
    by_cases hx : IsChunk x
    · obtain ⟨n, d, lc, lf, b, rfl⟩ := hx
      obtain ⟨e1, e2, e3, e4, e5, e6⟩ := scan_chunk h2
      cases lc with
      | true =>
        have hc : s'.cur = none := by rw [e1]; rfl
        refine ⟨fun _ => boundary_snoc (by rintro ⟨_, _, _, _, hq⟩; cases hq), fun n' g lf' b' hq => ?_⟩
        rw [hc] at hq; cases hq
      | false =>
        have hc : s'.cur = some (n, gotOf m.cur + d.length, lf, b) := by rw [e1]; rfl
        refine ⟨fun hq => (by rw [hc] at hq; cases hq), fun n' g lf' b' hq => ?_⟩
        rw [hc] at hq
        injection hq with hq
        rw [Prod.mk.injEq, Prod.mk.injEq, Prod.mk.injEq] at hq
        obtain ⟨rfl, rfl, rfl, rfl⟩ := hq
        cases hcur : m.cur with
        | none => exact ⟨l, [d], rfl, i1 hcur, by simp [gotOf]⟩
        | some q =>
          obtain ⟨n1, g1, lf1, b1⟩ := q
          obtain ⟨rfl, rfl, rfl, -⟩ := e6 _ hcur
          obtain ⟨before, cs, q1, q2, q3⟩ := i2 _ _ _ _ hcur
          exact ⟨before, cs ++ [d], by rw [q1]; simp, q2, by simp [← q3, gotOf]⟩
    · obtain ⟨e1, e2, e3⟩ := scan_other h2 hx
      obtain ⟨rfl, hc⟩ := e2 he
      refine ⟨fun _ => boundary_snoc (not_unfinished_other hx), fun n g lf b hq => ?_⟩
      rw [hc] at hq; cases hq

/-- Other actions do not change the message in progress. -/
theorem scan_between {s s' : Sc} {l : List Out} (h : scanAll s l = some s') (hl : ∀ x ∈ l, ¬ IsChunk x) : s'.msg = s.msg := by
  induction l generalizing s with
  | nil => injection h with h; rw [h]
  | cons x l ih =>
    obtain ⟨m, h1, h2⟩ := scanAll_cons h
    rw [ih h2 (fun y hy => hl y (List.mem_cons_of_mem _ hy)), (scan_other h1 (hl x List.mem_cons_self)).1]

theorem scan_consistent {s : Sc} {outs : List Out} (h : scanAll {} outs = some s) : Consistent outs := by
  refine ⟨?_, ?_, ?_⟩
  · rintro pre n d lc lf b post rfl
    obtain ⟨m, h1, h2⟩ := scanAll_split h
    obtain ⟨m', h2, h3⟩ := scanAll_cons h2
    obtain ⟨i1, i2⟩ := scan_frame h1 (scan_not_ended h2)
    obtain ⟨e1, e2, e3, e4, e5, e6⟩ := scan_chunk h2
    cases hcur : m.cur with
    | none =>
      rw [hcur] at e2 e3
      exact ⟨pre, [], by simp, i1 hcur, by simpa [gotOf] using e2, by simpa [gotOf] using e3, e4⟩
    | some q =>
      obtain ⟨n1, g1, lf1, b1⟩ := q
      obtain ⟨rfl, rfl, rfl, -⟩ := e6 _ hcur
      obtain ⟨before, cs, q1, q2, q3⟩ := i2 _ _ _ _ hcur
      rw [hcur] at e2 e3
      simp only [gotOf] at e2 e3
      rw [← q3] at e2 e3
      exact ⟨before, cs, q1, q2, e2, e3, e4⟩
  · rintro pre n d lf b x post rfl
    obtain ⟨m, h1, h2⟩ := scanAll_split h
    obtain ⟨m', h2, h3⟩ := scanAll_cons h2
    obtain ⟨m'', h4, h5⟩ := scanAll_cons h3
    obtain ⟨e1, -⟩ := scan_chunk h2
    have hc : m'.cur = some (n, gotOf m.cur + d.length, lf, b) := by rw [e1]; rfl
    by_cases hx : IsChunk x
    · obtain ⟨n', d', lc', lf', b', rfl⟩ := hx
      obtain ⟨-, -, -, -, -, e6⟩ := scan_chunk h4
      obtain ⟨rfl, rfl, rfl, -⟩ := e6 _ hc
      exact .inl ⟨d', lc', rfl⟩
    · obtain ⟨-, -, e3⟩ := scan_other h4 hx
      obtain ⟨e4, e5⟩ := e3 (by rw [hc]; exact fun h => nomatch h)
      refine .inr ⟨e5, ?_⟩
      cases post with
      | nil => rfl
      | cons y post =>
        obtain ⟨_, h6, -⟩ := scanAll_cons h5
        rw [scan_not_ended h6] at e4; cases e4
  · rintro pre n d lc lf b between n' d' lc' lf' b' post rfl hb rfl
    obtain ⟨m, h1, h2⟩ := scanAll_split h
    obtain ⟨m', h2, h3⟩ := scanAll_cons h2
    obtain ⟨m2, h4, h5⟩ := scanAll_split h3
    obtain ⟨m3, h6, -⟩ := scanAll_cons h5
    obtain ⟨e1, -⟩ := scan_chunk h2
    have hm : m'.msg = some b := by rw [e1]; simp
    have hm2 : m2.msg = some b := by rw [scan_between h4 hb, hm]
    obtain ⟨-, -, -, -, e5, -⟩ := scan_chunk h6
    rcases e5 with e5 | e5
    · rw [hm2] at e5; cases e5
    · rw [hm2] at e5; injection e5 with e5; exact e5.symm

/-- The last call of the read handler, if there was one, was the last one for its frame. -/
def AllComplete (outs : List Out) : Prop :=
  ∀ pre n d lc lf b post, outs = pre ++ .chunk n d lc lf b :: post → (∀ y ∈ post, ¬ IsChunk y) → lc = true

theorem scan_complete {s : Sc} {outs : List Out} (h : scanAll {} outs = some s) (hc : AllComplete outs) : s.cur = none := by
  induction outs using List.reverseRecOn generalizing s with
  | nil => injection h with h; rw [← h]
  | append_singleton l x ih =>
    obtain ⟨m, h1, h2⟩ := scanAll_split h
    obtain ⟨s', h3, h4⟩ := scanAll_cons h2
    injection h4 with h4
    subst h4
    by_cases hx : IsChunk x
    · obtain ⟨n, d, lc, lf, b, rfl⟩ := hx
      have := hc l n d lc lf b [] rfl (fun y hy => by cases hy)
      subst this
      rw [(scan_chunk h3).1]; rfl
    · rw [scan_other_cur h3 hx]
      refine ih h1 (fun pre n d lc lf b post he hp => hc pre n d lc lf b (post ++ [x]) (by rw [he]; simp) ?_)
      intro y hy
      rcases List.mem_append.mp hy with hy | hy
      · exact hp y hy
      · rw [List.mem_singleton.mp hy]; exact hx

theorem scan_prefix {s : Sc} {a b : List Out} (h : scanAll {} (a ++ b) = some s) : ∃ m, scanAll {} a = some m := by
  obtain ⟨m, h, -⟩ := scanAll_split h
  exact ⟨m, h⟩

theorem outs_scan (o : Endian.Order) (server sc : Bool) (u : Utf8.State) (pieces : List (Nat × List UInt8)) :
    ∃ s, scanAll {} (outsOf o server sc u pieces) = some s ∧ Agree (run o (start server sc u) [] pieces).1 s := by
  have hv : (Utf8.init u).state ∈ Utf8.V := by
    have : ∀ x, x = Utf8.ACCEPT → x ∈ Utf8.V := by rintro x rfl; decide
    exact this _ rfl
  exact run_fits o pieces {} (start server sc u) [] ⟨hv, rfl, rfl, .inl ⟨rfl, rfl⟩⟩

/-- C91: whatever the peer sends and however it is cut into pieces, the arguments of the read handler are consistent. -/
theorem read_handler_arguments (o : Endian.Order) (server sc : Bool) (u : Utf8.State) (pieces : List (Nat × List UInt8)) :
    Consistent (outsOf o server sc u pieces) := by
  obtain ⟨s, h, -⟩ := outs_scan o server sc u pieces
  exact scan_consistent h

set_option maxRecDepth 100000 in
/-- A client receives a binary message of two frames, the first one in two pieces, with a ping in between. -/
example : outsOf .little false false ⟨0, 0⟩ [(0, [0x02, 3, 1]), (8, [2, 3, 0x89]), (0, [0, 0x80, 1, 9])] =
    [.chunk 3 [1] false false true, .chunk 3 [2, 3] true false true, .control 9 [], .pong [], .chunk 1 [9] true true true] := by decide +kernel

end Cio.WsRecv

namespace Cio.WsStream
open WsRecv

theorem shown_scan (e : Env) (mem : List UInt8) (hmem : 125 ≤ mem.length) (xs : List Ev) (w : BufferedRead.World) (h : Reach e mem xs w) :
    ∃ s, scanAll {} (shown e w) = some s := by
  obtain ⟨ps, -, h2⟩ := (reach_inv e hmem h).good.agree
  obtain ⟨s, hs, ha⟩ := outs_scan e.o e.server e.selfClose e.utf8 ps
  rcases h2 with h2 | h2
  · have h3 : outsOf e.o e.server e.selfClose e.utf8 ps = shown e w ++ (togo e w).2.2 := h2.outs
    rw [h3] at hs
    obtain ⟨m, hs⟩ := scan_prefix hs
    exact ⟨m, hs⟩
  · obtain ⟨err, -, h3⟩ := h2.outs
    have h3 : shown e w = outsOf e.o e.server e.selfClose e.utf8 ps ++ [.fail (codeOf err)] := h3
    rw [h3]
    have he : s.ended = false := by
      have hg := h2.going
      unfold ideal at hg
      obtain ⟨-, ha⟩ := ha
      cases hc : (WsRecv.run e.o (start e.server e.selfClose e.utf8) [] ps).1.cont <;> rw [hc] at ha
      case stopped => exact absurd hc hg
      all_goals exact ha.1
    have : scanAll {} (outsOf e.o e.server e.selfClose e.utf8 ps ++ [.fail (codeOf err)]) = some { s with ended := true } := by
      rw [scanAll_append, hs]
      simp [scanAll, scan, he]
    exact ⟨_, this⟩

/-- C91 over the buffered stream, with failures of the transport and an application that asks for more whenever it likes. -/
theorem stream_read_handler_arguments (e : Env) (mem : List UInt8) (hmem : 125 ≤ mem.length) (xs : List Ev) (w : BufferedRead.World) (h : Reach e mem xs w) :
    Consistent (shown e w) := by
  obtain ⟨s, hs⟩ := shown_scan e mem hmem xs w h
  exact scan_consistent hs

end Cio.WsStream
