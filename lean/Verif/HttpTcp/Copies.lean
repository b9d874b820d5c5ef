import Verif.HttpTcp.Examples
import Verif.StreamSocket.Exact
/-
C123: what the client of an HTTP connection reads, whatever part of the bytes has arrived and whatever `sendmsg` does.
-/
namespace Cio.HttpTcp
open HttpResponse (Server str)
open HttpResponse.Rfc7230 (Bytes Response)
open StreamSocket (Sys Write Reach)
open BufferedWrite (FirstEndsEarly flat)

section
variable {quiet : Bool} {H : BufferedRead.Handler} {c : Bool} {mem : List UInt8} {sys : Sys} {s : Server} {ns : Nat} {rs : List Reply}

/-- The copies of the answers as byte strings, with what has been sent a beginning of them. -/
theorem copies_cover {xs : List Write} (hs : Initialised ns s) (ha : Answers s rs xs) (hr : ∀ r ∈ rs, r.Ok) (hw : ∀ x ∈ xs, x.Ok) (hok : ∀ x ∈ xs.dropLast, Succeeded x) :
    ∃ (l : List Response) (ws : List Bytes), Copies s ns rs xs l ∧ AllAre ws l ∧ xs.flatMap (fun x => x.world.wire) <+: ws.flatten := by
  induction ha with
  | nil => exact ⟨[], [], .nil, .nil, List.prefix_rfl⟩
  | cons h t ih =>
    rename_i r x rs xs
    have hsub : ∀ y ∈ xs.dropLast, Succeeded y := fun y hy => hok y (by
      cases xs with
      | nil => cases hy
      | cons z zs => rw [List.dropLast_cons_cons]; exact List.mem_cons_of_mem _ hy)
    obtain ⟨l, ws, l1, l2, l3⟩ := ih (fun r hm => hr r (List.mem_cons_of_mem _ hm)) (fun x hm => hw x (List.mem_cons_of_mem _ hm)) hsub
    have his : Is x.asked (r.expected s ns) := reply_is hs (hr _ List.mem_cons_self) h
    have hx := hw x List.mem_cons_self
    have two := BufferedWrite.wire_prefix_of_two x.chain hx.2.2 x.answers hx.2.1 x.world hx.1
    have one := fun hf => (BufferedWrite.write_exactly_partial x.chain hx.2.2 x.answers hx.2.1 hf x.world hx.1).1
    rw [List.flatMap_cons]
    by_cases he : FirstEndsEarly x.chain x.answers
    · refine ⟨_, x.asked :: ws, .once he l1, .cons his l2, ?_⟩
      rw [List.flatten_cons]
      cases xs with
      | nil => rw [List.flatMap_nil, List.append_nil]; exact (one he).trans (List.prefix_append _ _)
      | cons z zs =>
        rw [(succeeded_wire hx (hok x (by simp))).1 he]
        exact (List.prefix_append_right_inj _).2 l3
    · refine ⟨_, x.asked :: x.asked :: ws, .twice he l1, .cons his (.cons his l2), ?_⟩
      rw [List.flatten_cons, List.flatten_cons, ← List.append_assoc]
      cases xs with
      | nil => rw [List.flatMap_nil, List.append_nil]; exact two.trans (List.prefix_append _ _)
      | cons z zs =>
        rw [(succeeded_wire hx (hok x (by simp))).2 he]
        exact (List.prefix_append_right_inj _).2 l3

/-- C123: whatever part of what the server has sent has arrived, the client reads a beginning of the server's answers in order, each with the status, header fields and body given, none left out,
each once or, in exactly the case that the first `sendmsg` of its write did not end early, twice. -/
theorem client_reads_copies (hmem : mem ≠ []) (h : Reach quiet H c mem sys) (hs : Initialised ns s) (ha : Answers s rs sys.writes) (hr : ∀ r ∈ rs, r.Ok)
    (hok : ∀ x ∈ sys.writes.dropLast, Succeeded x) :
    ∃ l, Copies s ns rs sys.writes l ∧ ∀ arrived, arrived <+: sys.sock.outgoing → (responses arrived).1 <+: l := by
  obtain ⟨w1, w2⟩ := writes_ok hmem h
  obtain ⟨l, ws, l1, l2, l3⟩ := copies_cover hs ha hr w2 hok
  refine ⟨l, l1, fun p hp => ?_⟩
  rw [w1] at hp
  obtain ⟨k, k1, -⟩ := responses_prefix l2 p (hp.trans l3)
  rw [k1]
  exact List.take_prefix _ _

/-- C123: the client never reads an answer that was not given. -/
theorem only_given_answers (hmem : mem ≠ []) (h : Reach quiet H c mem sys) (hs : Initialised ns s) (ha : Answers s rs sys.writes) (hr : ∀ r ∈ rs, r.Ok)
    (hok : ∀ x ∈ sys.writes.dropLast, Succeeded x) {arrived : Bytes} (hp : arrived <+: sys.sock.outgoing) :
    ∀ a ∈ (responses arrived).1, ∃ r ∈ rs, a = r.expected s ns := by
  obtain ⟨l, l1, l2⟩ := client_reads_copies hmem h hs ha hr hok
  have hm : ∀ a ∈ l, ∃ r ∈ rs, a = r.expected s ns := by
    clear l2 ha hr hok
    generalize sys.writes = xs at l1
    induction l1 with
    | nil => exact fun a ha => nomatch ha
    | once _ _ ih =>
      intro a ha
      rcases List.mem_cons.1 ha with g | g
      · exact ⟨_, List.mem_cons_self, g⟩
      · obtain ⟨r, r1, r2⟩ := ih a g; exact ⟨r, List.mem_cons_of_mem _ r1, r2⟩
    | twice _ _ ih =>
      intro a ha
      rcases List.mem_cons.1 ha with g | g
      · exact ⟨_, List.mem_cons_self, g⟩
      · rcases List.mem_cons.1 g with g | g
        · exact ⟨_, List.mem_cons_self, g⟩
        · obtain ⟨r, r1, r2⟩ := ih a g; exact ⟨r, List.mem_cons_of_mem _ r1, r2⟩
  exact fun a ha => hm a ((l2 arrived hp).subset ha)

end

/-- `wrong_answer_reachable` meets the hypotheses of `client_reads_copies`. -/
example : ∃ sys, Reach true (fun _ => []) false [0] sys ∧ Answers server [reply (str "one"), reply (str "two")] sys.writes ∧ ∀ x ∈ sys.writes.dropLast, Succeeded x := by
  obtain ⟨sys, x1, x2, h1, h2, h3, h4, -⟩ := wrong_answer_reachable
  exact ⟨sys, h1, by rw [h2]; exact h3, by rw [h2]; simpa using h4⟩

end Cio.HttpTcp
