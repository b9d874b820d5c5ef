import Verif.WsExample.Frozen
/-
C102: cases.
-/
namespace Cio.WsExample
open Cio.WsQueue

/-- The client sends a message and gets its answer; all handlers have returned. -/
def greeted : Prog := appRun (onConnect true true) [{ what := .other .ret }, { what := .other .gotData }, { what := .other .ret }, { what := .other .ret },
  { what := .other .ret }, { what := .other .ret }]

theorem greeted_reachable : Reachable greeted := (Reachable.connect true true).run _

/-- The answer was sent and the program's attempt to close the connection was refused. -/
theorem greeted_is : greeted.q.w.log = [.completed 0 .success [.usr 12], .sent .message (.user 0) false 1 true 12 [.usr 12], .accepted 0 .message [12] false 1 true 12] ∧
    greeted.refused = 1 ∧ greeted.armed = true ∧ greeted.q.stack = [] ∧ greeted.q.w.pend = false := by decide +kernel

/-- The peer of `greeted` closes the connection, or sends a close frame: nothing happens. -/
example (e : Event) (h : e.what = .other .fail ∨ e.what = .other (.gotClose 0)) : appStep greeted e = greeted := by
  have hm : .onError ∉ greeted.q.w.log := by rw [greeted_is.1]; decide
  have hh : 0 < hellos greeted.q.w.log := by rw [greeted_is.1]; decide
  rcases h with h | h
  · exact deaf_after_hello_partial greeted_reachable hm hh greeted_is.2.2.2.1 _ rfl e h
  · exact deaf_after_hello_partial greeted_reachable hm hh greeted_is.2.2.2.1 _ rfl e h

/-- Whatever follows, `greeted` is not closed. -/
example (es : List Event) (hr : ∀ e ∈ es, e.tr ≠ .refuse) : .closed ∉ (appRun greeted es).q.w.log :=
  (never_closed_after_hello greeted_reachable (by rw [greeted_is.1]; decide) (by rw [greeted_is.1]; decide) (by rw [greeted_is.1]; decide) greeted_is.2.2.2.1 es hr).1

/-- Then a ping cannot be written. -/
def pingFailed : Prog := appRun greeted [{ what := .ping true, tr := .now .failed }, { what := .other .ret }, { what := .other .ret }]

theorem pingFailed_is : pingFailed.q.w.log.head? = some (.completed 1 .failed [.usr 4]) ∧ pingFailed.refused = 2 ∧ pingFailed.armed = false ∧
    pingFailed.q.stack = [] ∧ pingFailed.q.w.pend = false ∧ pingFailed.q.w.closes = 0 ∧ .onError ∉ pingFailed.q.w.log ∧ 0 < hellos pingFailed.q.w.log := by decide +kernel

/-- A connection whose peer is gone is kept for ever: the connection is not closed, no ping is sent any more, nothing is read. -/
theorem kept_for_ever : ∃ p, Reachable p ∧ .completed 1 .failed [.usr 4] ∈ p.q.w.log ∧ .closed ∉ p.q.w.log ∧ ∀ es, appRun p es = p := by
  refine ⟨pingFailed, greeted_reachable.run _, List.mem_of_head? pingFailed_is.1, by decide +kernel, fun es => ?_⟩
  obtain ⟨_, _, h3, h4, h5, _, h7, h8⟩ := pingFailed_is
  exact frozen (greeted_reachable.run _) h7 h8 h4 h5 h3 es

/-- A ping that has to wait for the socket is kept by the library in a variable of a function that has returned. -/
theorem dangling_reachable : ∃ p, Reachable p ∧ Dangling p ∧ .closed ∉ p.q.w.log ∧ .onError ∉ p.q.w.log := by
  refine ⟨appRun (onConnect true true) [{ what := .other .ret }, { what := .ping true, tr := .later }], (Reachable.connect true true).run _, ?_⟩
  unfold Dangling
  decide +kernel

/-- It is also without a failure of the connection that a peer's close frame is answered, if it comes before the first message. -/
example : let p := appRun (onConnect true true) [{ what := .other .ret }, { what := .other (.gotClose 0) }, { what := .other .ret }, { what := .other .ret }]
    p.q.w.log = [.closed, .sent .close .null false 8 true 2 [.usr 2]] := by decide +kernel

/-- `message_answered` has cases: the state after connecting. -/
example : let p := appRun (onConnect true true) [{ what := .other .ret }]
    p.q.stack = [] ∧ p.q.w.reading = true ∧ p.q.w.pend = false ∧ .onError ∉ p.q.w.log ∧ .closed ∉ p.q.w.log := by decide +kernel

/-- `not_dangling_partial` has cases in which a ping has been written. -/
example : let es : List Event := [{ what := .other .ret }, { what := .ping true }, { what := .other .ret }, { what := .other .ret }]
    let p := appRun (onConnect true true) es
    (∀ e ∈ es, e.tr ≠ .later) ∧ p.armed = true ∧ p.q.stack = [] ∧ p.q.w.log = [.completed 0 .success [.usr 4], .sent .ping (.user 0) false 9 true 4 [.usr 4],
      .accepted 0 .ping [4] false 9 true 4] := by decide +kernel

end Cio.WsExample
