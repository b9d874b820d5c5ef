import Verif.HttpTcp.Props
import Verif.StreamSocket.Examples
/-
Runs: two requests on one connection are answered, once with `sendmsg` taking the responses in pieces that end before the body, once with a piece that ends within the body.
-/
namespace Cio.HttpTcp
open HttpResponse (Server Client Status Elem writeResponse str strElem newClient initKeepalive)
open HttpResponse.Rfc7230 (Bytes Response)
open StreamSocket (Sys Write Reach runOk runOk_reach Ev)
open BufferedWrite (FirstEndsEarly flat)

def server : Server := { version := str "1", keepaliveHeader := str "Keep-Alive: timeout=5\r\n" }

/-- An answer with one header field of the handler's own and a body of one element. -/
def reply (body : Bytes) : Reply :=
  { client := HttpResponse.addResponseHeader (newClient (List.replicate 30 7)) (strElem (str "A: b\r\n")), status := .ok, user := [(str "A", str "b")], body := some [strElem body], content := body,
    flushErr := SUCCESS }

/-- The elements as the stream gets them. -/
def chainOf (r : Reply) : List BufferedWrite.Elem :=
  (((writeResponse server r.client r.status r.body true r.flushErr).sent.getD []).map fun e => e.mem.take e.len).map fun d => ⟨7, d⟩

def answered (first : Nat) : List Ev :=
  [.enter, .write (chainOf (reply (str "one"))), .send (.sent first), .send .again, .leave, .leave, .writable none, .send (.sent 1000), .leave, .leave,
   .enter, .write (chainOf (reply (str "two"))), .send (.sent 1000), .leave, .leave]

def after (first : Nat) : Option Sys := runOk true (fun _ => []) false (StreamSocket.initial false [0]) (answered first)

/-- What the client reads, as text. -/
def bodies (first : Nat) : Option (List (Nat × Bytes) × Bytes) :=
  (after first).map fun s => (((responses s.sock.outgoing).1.map fun r => (r.status, r.body)), (responses s.sock.outgoing).2)

/-- The lengths of the elements of the first answer: the last one is the body. -/
example : (chainOf (reply (str "one"))).map (·.data.length) = [37, 6, 19, 23, 24, 2, 3] := by decide +kernel

set_option maxRecDepth 100000 in
example : bodies 50 = some ([(200, str "one"), (200, str "two")], []) := by decide +kernel

set_option maxRecDepth 100000 in
/-- Of the 114 bytes of the first response, `sendmsg` takes 112, ending within the body. -/
example : bodies 112 = some ([(200, str "one"), (200, str "one"), (200, str "two")], []) := by decide +kernel

set_option maxRecDepth 100000 in
/-- The hypotheses of the theorems are met. -/
example : Initialised 5000000000 server ∧ (reply (str "one")).Ok ∧ (reply (str "two")).Ok :=
  ⟨⟨by decide +kernel, by decide⟩, ⟨trivial, rfl, ⟨by decide +kernel, by decide⟩, by decide +kernel, by decide +kernel, by decide, fun h => (by cases h)⟩,
    ⟨trivial, rfl, ⟨by decide +kernel, by decide⟩, by decide +kernel, by decide +kernel, by decide, fun h => (by cases h)⟩⟩

theorem sent_as (b : Bytes) (x : Write) (h : x.chain = chainOf (reply b)) : SentAs server (reply b) x := by
  refine ⟨_, rfl, ?_⟩
  rw [h]
  unfold chainOf
  rw [List.map_map, List.map_map]
  rfl

theorem after_wrong : ∃ s, after 112 = some s ∧ s.cur.isNone = true ∧ s.done.map (·.chain) = [chainOf (reply (str "one")), chainOf (reply (str "two"))] ∧
    s.done.map (fun x => x.world.calls.map (·.1)) = [[SUCCESS], [SUCCESS]] ∧ s.done.map (fun x => x.answers.head?.map fun a => match a with | .ok n => n | _ => 0) = [some 112, some 114] := by
  have h : (after 112).isSome = true := by decide +kernel
  obtain ⟨s, hs⟩ := Option.isSome_iff_exists.1 h
  refine ⟨s, hs, ?_⟩
  have e : (after 112).map (fun s => decide (s.cur.isNone = true ∧ s.done.map (·.chain) = [chainOf (reply (str "one")), chainOf (reply (str "two"))] ∧
      s.done.map (fun x => x.world.calls.map (·.1)) = [[SUCCESS], [SUCCESS]] ∧
      s.done.map (fun x => x.answers.head?.map fun a => match a with | .ok n => n | _ => 0) = [some 112, some 114])) = some true := by decide +kernel
  rw [hs, Option.map_some, Option.some.injEq] at e
  exact of_decide_eq_true e

/-- C101 is false of the code: the situation of `wrong_answer` can be reached: all writes are reported as successful, and the client reads the answer "one" for both requests. -/
theorem wrong_answer_reachable : ∃ sys x1 x2, Reach true (fun _ => []) false [0] sys ∧ sys.writes = [x1, x2] ∧ Answers server [reply (str "one"), reply (str "two")] [x1, x2] ∧
    Succeeded x1 ∧ Succeeded x2 ∧ ¬ FirstEndsEarly x1.chain x1.answers ∧ (responses sys.sock.outgoing).1[1]? = some ((reply (str "one")).expected server 5000000000) ∧
    (reply (str "one")).expected server 5000000000 ≠ (reply (str "two")).expected server 5000000000 := by
  obtain ⟨s, h1, h2, h3, h4, h5⟩ := after_wrong
  have hreach : Reach true (fun _ => []) false [0] s := runOk_reach (answered 112) .init h1
  have hw : s.writes = s.done := by
    unfold Sys.writes
    rw [Option.isNone_iff_eq_none.1 h2]
    exact List.append_nil _
  obtain ⟨x1, x2, hd⟩ : ∃ x1 x2, s.done = [x1, x2] := by
    have hl := congrArg List.length h3
    simp only [List.length_map, List.length_cons, List.length_nil] at hl
    match hd : s.done, hl with
    | [a, b], _ => exact ⟨a, b, rfl⟩
  · rw [hd] at h3 h4 h5
    simp only [List.map_cons, List.map_nil, List.cons.injEq, and_true] at h3 h4 h5
    have hs : ∀ x : Write, x.world.calls.map (·.1) = [SUCCESS] → Succeeded x := by
      intro x hx
      match hc : x.world.calls, hx with
      | [(e, ch)], hx =>
        simp only [List.map_cons, List.map_nil, List.cons.injEq, and_true] at hx
        exact ⟨ch, by rw [hc, hx]; exact List.mem_cons_self⟩
    have hf : ¬ FirstEndsEarly x1.chain x1.answers := by
      intro g
      have h6 : x1.answers.head? = some (.ok 112) := by
        have := h5.1
        cases hq : x1.answers.head? with
        | none => rw [hq] at this; cases this
        | some a => rw [hq] at this; cases a <;> simp at this <;> simp [this]
      have := g 112 h6
      rw [h3.1] at this
      exact absurd this (by decide +kernel)
    have ha : Answers server [reply (str "one"), reply (str "two")] [x1, x2] := .cons (sent_as _ _ h3.1) (.cons (sent_as _ _ h3.2) .nil)
    have ok : ∀ b : Bytes, b = str "one" ∨ b = str "two" → (reply b).Ok := by
      rintro b (rfl | rfl)
      all_goals exact ⟨trivial, rfl, ⟨by decide +kernel, by decide⟩, by decide +kernel, by decide +kernel, by decide, fun h => (by cases h)⟩
    have hi : Initialised 5000000000 server := ⟨by decide +kernel, by decide⟩
    exact ⟨s, x1, x2, hreach, hw.trans hd, ha, hs _ h4.1, hs _ h4.2, hf,
      wrong_answer (by decide) hreach hi (hw.trans hd) ha (ok _ (Or.inl rfl)) (ok _ (Or.inr rfl)) (hs _ h4.1) (hs _ h4.2) hf, fun h => absurd (congrArg Response.body h) (by decide)⟩

end Cio.HttpTcp
