import Verif.StreamSocket.Progress
import Verif.StreamSocket.Examples
import Verif.BufferedWrite.Exact
/-
What the writes of a buffered stream put on the wire, without any condition on what the transport does.
-/
namespace Cio.BufferedWrite

/-- How often the handler has been called. -/
structure Once (w : World) : Prop where
  open_ : w.phase ≠ .idle → w.calls = [] ∧ w.returned = none
  wire : w.phase = .first → w.wire = []
  done : w.phase = .idle → (∃ e c, w.calls = [(e, c)] ∧ w.returned = none) ∨ (w.calls = [] ∧ (∃ e, w.returned = some e) ∧ w.wire = [])

theorem once_handler {w : World} (h : w.calls = [] ∧ w.returned = none) (e : Err) : Once (callHandler w e) :=
  ⟨(fun h => absurd rfl h), (fun h => nomatch h), fun _ => .inl ⟨e, w.chain, by simp [callHandler, h.1], h.2⟩⟩

theorem once_step {w w' : World} {r : Resp} (h : Once w) (hr : respond w r = some w') : Once w' := by
  cases hp : w.phase with
  | idle => cases r <;> simp only [respond, hp] at hr <;> cases hr
  | first =>
    have ho := h.open_ (by rw [hp]; exact fun h => nomatch h)
    cases r with
    | ok n =>
      simp only [respond, hp] at hr
      split at hr
      · unfold handleFirstWrite at hr
        split at hr
        · injection hr with hr; rw [← hr]; exact once_handler (by exact ho) _
        · unfold handlePartialWrites at hr
          dsimp only at hr
          cases hf : findPartial n w.chain with
          | none => rw [hf] at hr; cases hr
          | some x =>
            obtain ⟨pre, e, m, post⟩ := x
            rw [hf] at hr
            cases post with
            | nil =>
              have hr : some _ = some w' := hr
              injection hr with hr; rw [← hr]; exact ⟨fun _ => ho, (fun h => nomatch h), (fun h => nomatch h)⟩
            | cons a b =>
              have hr : some _ = some w' := hr
              injection hr with hr; rw [← hr]; exact ⟨fun _ => ho, (fun h => nomatch h), (fun h => nomatch h)⟩
      · cases hr
    | err e => simp only [respond, hp] at hr; injection hr with hr; rw [← hr]; exact once_handler (by exact ho) _
    | sync e =>
      simp only [respond, hp] at hr; injection hr with hr; rw [← hr]
      exact ⟨(fun h => absurd rfl h), (fun h => nomatch h), fun _ => .inr ⟨ho.1, ⟨e, rfl⟩, h.wire hp⟩⟩
  | more =>
    have ho := h.open_ (by rw [hp]; exact fun h => nomatch h)
    cases r with
    | ok n =>
      simp only [respond, hp] at hr
      split at hr
      · injection hr with hr; rw [← hr]
        unfold handleWrite
        dsimp only
        split
        · exact once_handler (by exact ho) _
        · exact ⟨fun _ => ho, (fun h => nomatch h), (fun h => nomatch h)⟩
      · cases hr
    | err e => simp only [respond, hp] at hr; injection hr with hr; rw [← hr]; exact once_handler (by exact ho) _
    | sync e => simp only [respond, hp] at hr; injection hr with hr; rw [← hr]; exact once_handler (by exact ho) _

theorem once_run (rs : List Resp) {w w' : World} (h : Once w) (hr : run w rs = some w') : Once w' := by
  induction rs generalizing w with
  | nil => simp only [run, Option.some.injEq] at hr; subst hr; exact h
  | cons r rs ih =>
    simp only [run] at hr
    cases hs : respond w r with
    | none => rw [hs] at hr; simp at hr
    | some v => rw [hs] at hr; exact ih (once_step h hs) hr

/-- C120: the handler of a write is called exactly once when the write is over, unless `cio_buffered_stream_write` itself returned the error, when nothing
is written and it is not called at all; and not before. -/
theorem handler_exactly_once (chain : List Elem) (rs : List Resp) (w : World) (hr : run (write chain) rs = some w) :
    (w.phase ≠ .idle → w.calls = [] ∧ w.returned = none) ∧
      (w.phase = .idle → (∃ e c, w.calls = [(e, c)] ∧ w.returned = none) ∨ (w.calls = [] ∧ (∃ e, w.returned = some e) ∧ w.wire = [])) := by
  have h := once_run rs (w := write chain) ⟨fun _ => ⟨rfl, rfl⟩, fun _ => rfl, (fun h => nomatch h)⟩ hr
  exact ⟨h.open_, h.done⟩

end Cio.BufferedWrite

namespace Cio.StreamSocket
open Cio.BufferedWrite (FirstEndsEarly flat)

/-- What a write that is reported as successful puts on the wire: the bytes it was given, and once more if the first `sendmsg` ended within the last
element with bytes. -/
noncomputable def Write.sends (x : Write) : List UInt8 :=
  open Classical in if FirstEndsEarly x.chain x.answers then x.asked else x.asked ++ x.asked

theorem ok_of_mem {quiet : Bool} {H : BufferedRead.Handler} {c : Bool} {mem : List UInt8} {s : Sys} (i : Inv quiet H c mem s) {x : Write} (hx : x ∈ s.writes) : x.Ok := by
  rcases List.mem_append.1 hx with g | g
  · exact (i.done x g).1
  · exact (i.cur x (Option.mem_toList.1 g)).1

/-- C120: the peer gets what the writes put on the wire, one after the other and nothing else; each of them at any time a beginning of its bytes or of two copies
of them; exactly its bytes, or exactly two copies, if success is reported, which of the two depends on the first `sendmsg` alone; its handler is called
once when it is over, and not before. -/
theorem writes_exact {quiet : Bool} {H : BufferedRead.Handler} {c : Bool} {mem : List UInt8} (hmem : mem ≠ []) {s : Sys} (h : Reach quiet H c mem s) :
    s.sock.outgoing = s.writes.flatMap (fun x => x.world.wire) ∧
    (∀ x ∈ s.writes, x.world.wire <+: x.asked ++ x.asked ∧ (FirstEndsEarly x.chain x.answers → x.world.wire <+: x.asked) ∧
      ∀ ch, (SUCCESS, ch) ∈ x.world.calls → (FirstEndsEarly x.chain x.answers → x.world.wire = x.asked) ∧
        (¬ FirstEndsEarly x.chain x.answers → x.world.wire = x.asked ++ x.asked)) ∧
    (∀ x ∈ s.done, (∃ e ch, x.world.calls = [(e, ch)]) ∨ (x.world.calls = [] ∧ (∃ e, x.world.returned = some e) ∧ x.world.wire = [])) ∧
    ∀ x, s.cur = some x → x.world.calls = [] := by
  have i := reach_inv hmem h
  refine ⟨?_, fun x hx => ?_, fun x hx => ?_, fun x hx => ?_⟩
  · rw [i.out]
    unfold Sys.writes wires
    rw [List.flatMap_append]
    cases s.cur with
    | none => rfl
    | some x => show _ ++ x.world.wire = _ ++ (x.world.wire ++ []); rw [List.append_nil]
  · have hok := ok_of_mem i hx
    refine ⟨BufferedWrite.wire_prefix_of_two x.chain hok.2.2 x.answers hok.2.1 x.world hok.1,
      fun hf => (BufferedWrite.write_exactly_partial x.chain hok.2.2 x.answers hok.2.1 hf x.world hok.1).1, fun ch hch => ?_⟩
    exact BufferedWrite.success_wire_partial x.chain hok.2.2 x.answers hok.2.1 x.world hok.1 ch hch
  · obtain ⟨hok, hid⟩ := i.done x hx
    rcases (BufferedWrite.handler_exactly_once x.chain x.answers x.world hok.1).2 hid with ⟨e, ch, q, -⟩ | q
    · exact .inl ⟨e, ch, q⟩
    · exact .inr q
  · obtain ⟨hok, hid⟩ := i.cur x hx
    exact ((BufferedWrite.handler_exactly_once x.chain x.answers x.world hok.1).1 hid).1

/-- C120: if all writes were successful and none is under way, the peer has got exactly what was to be written, in order, each write once or twice. -/
theorem all_successful_exact {quiet : Bool} {H : BufferedRead.Handler} {c : Bool} {mem : List UInt8} (hmem : mem ≠ []) {s : Sys} (h : Reach quiet H c mem s)
    (hcur : s.cur = none) (hok : ∀ x ∈ s.done, ∃ ch, (SUCCESS, ch) ∈ x.world.calls) : s.sock.outgoing = s.done.flatMap Write.sends := by
  obtain ⟨w1, w2, -⟩ := writes_exact hmem h
  have hw : s.writes = s.done := by unfold Sys.writes; rw [hcur]; exact List.append_nil _
  rw [w1, hw]
  rw [hw] at w2
  clear w1 hcur hw
  generalize s.done = l at w2 hok
  induction l with
  | nil => rfl
  | cons x l ih =>
    rw [List.flatMap_cons, List.flatMap_cons, ih (fun y hy => w2 y (List.mem_cons_of_mem _ hy)) (fun y hy => hok y (List.mem_cons_of_mem _ hy))]
    obtain ⟨ch, hch⟩ := hok x List.mem_cons_self
    obtain ⟨q1, q2⟩ := (w2 x List.mem_cons_self).2.2 ch hch
    congr 1
    unfold Write.sends
    split
    · rename_i hf; exact q1 hf
    · rename_i hf; exact q2 hf

/-- The second case occurs (the first is the usual one): a write of a single element whose first `sendmsg` must wait. -/
example : ∃ s, Reach true BufferedRead.lineReader true [0] s ∧ s.cur = none ∧ s.done.flatMap (fun x => x.world.calls.map (·.1)) = [SUCCESS] ∧
    s.sock.outgoing = s.done.flatMap Write.asked ++ s.done.flatMap Write.asked := by
  obtain ⟨s, h1, h2, h3, h4, h5⟩ := one_element_sent_twice
  exact ⟨s, h1, h2, h4, by rw [h5, h3]; rfl⟩

end Cio.StreamSocket
