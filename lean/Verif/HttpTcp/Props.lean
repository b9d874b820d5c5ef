import Verif.HttpTcp.Reader
import Verif.HttpResponse.Props
import Verif.StreamSocket.Props
import Verif.BufferedWrite.Exact
/-
C101: what the client of an HTTP connection reads.

The parts are those modelled before: `Cio.HttpResponse` (the chain of write buffers `write_response` hands to the stream, /repo/lib/src/http_server.c 251-289) and `Cio.StreamSocket`
(`cio_buffered_stream_write` on a Linux socket).  `s.sock.outgoing` is what the operating system has accepted for the client; what has arrived there is a beginning of it.
`responses` is the reader of the specification.
-/
namespace Cio.HttpTcp
open HttpResponse (Server Client Status Elem writeResponse expectedFields UserHeaders Listed code line str dec initKeepalive CRLF wire)
open HttpResponse.Rfc7230 (Bytes Response read number)
open StreamSocket (Sys Write Reach)
open BufferedWrite (FirstEndsEarly WritesExactly flat)

/-- One answer of the server: the state of the connection when it is given (the handler's own header lines are in there), and what the handler hands over. -/
structure Reply where
  client : Client
  status : Status
  /-- The header fields of the handler. -/
  user : List (Bytes × Bytes)
  body : Option (List Elem)
  content : Bytes
  /-- What `cio_buffered_stream_write` returned. -/
  flushErr : Err

/-- The server was initialised (`cio_http_server_init`) with the header timeout `ns`. -/
structure Initialised (ns : Nat) (s : Server) : Prop where
  keepalive : initKeepalive ns = some s.keepaliveHeader
  version : 13 ∉ s.version

/-- The handler plays by the rules: a status of the API, complete header lines and none that states a length of its own, a body of less than 10^10 bytes (C35), and none behind
a 101; it is the first answer to the request. -/
structure Reply.Ok (r : Reply) : Prop where
  status : Listed r.status
  fresh : r.client.responseWritten = false
  user : UserHeaders r.client r.user
  noLength : lengths r.user = []
  body : wire (r.body.getD []) = some r.content
  short : r.content.length < 10 ^ 10
  upgrade : r.status = .switchingProtocols → r.content = []

/-- What the client is to see. -/
def Reply.expected (s : Server) (ns : Nat) (r : Reply) : Response :=
  { status := code r.status, body := r.content
    fields := expectedFields s r.client r.status r.user (str "Keep-Alive", str "timeout=" ++ dec (ns / 1000000000 % 2 ^ 32)) r.content.length }

/-- This write of the stream is the one `write_response` starts: the elements have the bytes of the response's elements. -/
def SentAs (s : Server) (r : Reply) (x : Write) : Prop :=
  ∃ chain, (writeResponse s r.client r.status r.body true r.flushErr).sent = some chain ∧ x.chain.map (·.data) = chain.map fun e => e.mem.take e.len

/-- The writes of the connection are these answers, in order. -/
inductive Answers (s : Server) : List Reply → List Write → Prop
  | nil : Answers s [] []
  | cons {r : Reply} {x : Write} {rs : List Reply} {xs : List Write} (h : SentAs s r x) (t : Answers s rs xs) : Answers s (r :: rs) (x :: xs)

/-- The handler of this write was told of success. -/
def Succeeded (x : Write) : Prop := ∃ ch, (SUCCESS, ch) ∈ x.world.calls

theorem flat_of_data {l : List BufferedWrite.Elem} {chain : List Elem} {w : Bytes} (h : l.map (·.data) = chain.map fun e => e.mem.take e.len) (hw : wire chain = some w) : flat l = w := by
  induction chain generalizing l w with
  | nil =>
    have : l = [] := List.map_eq_nil_iff.1 h
    subst this
    rw [wire, Option.some.injEq] at hw
    rw [← hw]
    rfl
  | cons e es ih =>
    cases l with
    | nil => cases h
    | cons a l =>
      rw [List.map_cons, List.map_cons, List.cons.injEq] at h
      rw [wire] at hw
      by_cases hl : e.len ≤ e.mem.length
      · rw [if_pos hl] at hw
        cases hq : wire es with
        | none => rw [hq] at hw; cases hw
        | some v =>
          rw [hq, Option.map_some, Option.some.injEq] at hw
          rw [BufferedWrite.flat_cons, ih h.2 hq, h.1, hw]
      · rw [if_neg hl] at hw; cases hw

theorem proper_keepalive (n : Nat) : HttpResponse.Proper (str "Keep-Alive", str "timeout=" ++ dec n) := by
  refine ⟨(by decide : str "Keep-Alive" ≠ []), (by decide : 58 ∉ str "Keep-Alive"), (by decide : 13 ∉ str "Keep-Alive"), ?_, ?_⟩
  · simp only [List.mem_append, not_or]; exact ⟨(by decide), fun h => (HttpResponse.dec_mem _ _ h).1 rfl⟩
  · simp [show str "timeout=" = [116, 105, 109, 101, 111, 117, 116, 61] by decide]

theorem lengths_append (a b : List (Bytes × Bytes)) : lengths (a ++ b) = lengths a ++ lengths b := by
  unfold lengths
  rw [List.filter_append, List.map_append]

theorem lengths_other (n v : Bytes) (h : lower n ≠ [99, 111, 110, 116, 101, 110, 116, 45, 108, 101, 110, 103, 116, 104]) : lengths [(n, v)] = [] := by
  unfold lengths
  rw [List.filter_cons_of_neg (by simpa using h), List.filter_nil, List.map_nil]

theorem lengths_this (n v : Bytes) (h : lower n = [99, 111, 110, 116, 101, 110, 116, 45, 108, 101, 110, 103, 116, 104]) : lengths [(n, v)] = [v] := by
  unfold lengths
  rw [List.filter_cons_of_pos (by simpa using h), List.filter_nil]
  rfl

/-- The bytes of an answer are one response, the expected one, and nothing else. -/
theorem reply_is {s : Server} {ns : Nat} {r : Reply} {x : Write} (hs : Initialised ns s) (hr : r.Ok) (h : SentAs s r x) : Is (flat x.chain) (r.expected s ns) := by
  have hka : s.keepaliveHeader = line (str "Keep-Alive", str "timeout=" ++ dec (ns / 1000000000 % 2 ^ 32)) ++ CRLF := by
    have := hs.keepalive
    rw [HttpResponse.keepalive_header] at this
    split at this
    · exact (Option.some.inj this).symm
    · cases this
  obtain ⟨chain, w, h1, h2, h3, h4, -⟩ := HttpResponse.response_wellformed_partial s r.client r.status r.body r.flushErr r.user _ r.content hr.status hr.fresh hr.user hs.version hka
    (proper_keepalive _) hr.body hr.short
  obtain ⟨chain', g1, g2⟩ := h
  rw [h1, Option.some.injEq] at g1
  subst g1
  rw [flat_of_data g2 h2]
  refine readOne_iff.2 ⟨_, r.content.length, h3, ?_, Nat.le_refl _, ?_, ?_⟩
  · show bodyLength (code r.status) (expectedFields s r.client r.status r.user _ r.content.length) = _
    unfold bodyLength
    have hlen : lengths (expectedFields s r.client r.status r.user (str "Keep-Alive", str "timeout=" ++ dec (ns / 1000000000 % 2 ^ 32)) r.content.length) = [dec r.content.length] := by
      unfold expectedFields
      rw [lengths_append, lengths_append, lengths_append, hr.noLength, lengths_other _ _ (by decide), lengths_this _ _ (by decide)]
      have : lengths (if r.status = .switchingProtocols then [(str "Connection", str "Upgrade")]
          else if HttpResponse.keepOpen r.client r.status then [(str "Keep-Alive", str "timeout=" ++ dec (ns / 1000000000 % 2 ^ 32)), (str "Connection", str "keep-alive")]
          else [(str "Connection", str "close")]) = [] := by
        split
        · exact lengths_other _ _ (by decide)
        · split
          · rw [show ∀ a b : Bytes × Bytes, [a, b] = [a] ++ [b] from fun _ _ => rfl, lengths_append, lengths_other _ _ (by decide), lengths_other _ _ (by decide)]; rfl
          · exact lengths_other _ _ (by decide)
      rw [this]
      rfl
    rw [hlen]
    cases hst : r.status with
    | switchingProtocols => rw [hr.upgrade hst]; rfl
    | other n => have := hr.status; rw [hst] at this; exact this.elim
    | ok => exact (if_neg (by decide)).trans h4
    | badRequest => exact (if_neg (by decide)).trans h4
    | notFound => exact (if_neg (by decide)).trans h4
    | timeout => exact (if_neg (by decide)).trans h4
    | internalServerError => exact (if_neg (by decide)).trans h4
  · show Response.mk _ _ _ = Response.mk _ _ _
    rw [List.take_length]
  · exact (List.drop_length).symm

theorem answers_are {s : Server} {ns : Nat} (hs : Initialised ns s) {rs : List Reply} {xs : List Write} (h : Answers s rs xs) (hr : ∀ r ∈ rs, r.Ok) :
    AllAre (xs.map Write.asked) (rs.map (Reply.expected s ns)) := by
  induction h with
  | nil => exact .nil
  | cons h t ih => exact .cons (reply_is hs (hr _ List.mem_cons_self) h) (ih fun r hm => hr r (List.mem_cons_of_mem _ hm))

section
variable {quiet : Bool} {H : BufferedRead.Handler} {c : Bool} {mem : List UInt8} {sys : Sys} {s : Server} {ns : Nat} {rs : List Reply}

theorem succeeded_wire {x : Write} (hx : x.Ok) (h : Succeeded x) :
    (FirstEndsEarly x.chain x.answers → x.world.wire = x.asked) ∧ (¬ FirstEndsEarly x.chain x.answers → x.world.wire = x.asked ++ x.asked) := by
  obtain ⟨ch, hch⟩ := h
  exact BufferedWrite.success_wire_partial x.chain hx.2.2 x.answers hx.2.1 x.world hx.1 ch hch

theorem writes_ok (hmem : mem ≠ []) (h : Reach quiet H c mem sys) : sys.sock.outgoing = sys.writes.flatMap (fun x => x.world.wire) ∧ ∀ x ∈ sys.writes, x.Ok := by
  have i := StreamSocket.reach_inv hmem h
  refine ⟨?_, fun x hx => ?_⟩
  · rw [i.out]
    unfold Sys.writes StreamSocket.wires
    rw [List.flatMap_append]
    cases sys.cur with
    | none => rfl
    | some x => show _ ++ x.world.wire = _ ++ (x.world.wire ++ []); rw [List.append_nil]
  · rcases List.mem_append.1 hx with g | g
    · exact (i.done x g).1
    · exact (i.cur x (Option.mem_toList.1 g)).1

theorem wires_prefix (l : List Write) (hw : ∀ x ∈ l, x.Ok) (hf : ∀ x ∈ l, FirstEndsEarly x.chain x.answers) (hs : ∀ x ∈ l.dropLast, Succeeded x) :
    l.flatMap (fun x => x.world.wire) <+: (l.map Write.asked).flatten := by
  induction l with
  | nil => exact List.prefix_rfl
  | cons x l ih =>
    cases l with
    | nil =>
      have hx := hw x List.mem_cons_self
      rw [List.flatMap_cons, List.flatMap_nil, List.append_nil, List.map_cons, List.map_nil, List.flatten_cons, List.flatten_nil, List.append_nil]
      exact (BufferedWrite.write_exactly_partial x.chain hx.2.2 x.answers hx.2.1 (hf x List.mem_cons_self) x.world hx.1).1
    | cons y l =>
      rw [List.flatMap_cons, List.map_cons, List.flatten_cons, (succeeded_wire (hw x List.mem_cons_self) (hs x (by simp))).1 (hf x List.mem_cons_self)]
      exact (List.prefix_append_right_inj _).2 (ih (fun z hz => hw z (List.mem_cons_of_mem _ hz)) (fun z hz => hf z (List.mem_cons_of_mem _ hz))
        (fun z hz => hs z (by rw [List.dropLast_cons_cons]; exact List.mem_cons_of_mem _ hz)))

theorem wires_all (l : List Write) (hw : ∀ x ∈ l, x.Ok) (hf : ∀ x ∈ l, FirstEndsEarly x.chain x.answers) (hs : ∀ x ∈ l, Succeeded x) :
    l.flatMap (fun x => x.world.wire) = (l.map Write.asked).flatten := by
  induction l with
  | nil => rfl
  | cons x l ih =>
    rw [List.flatMap_cons, List.map_cons, List.flatten_cons, (succeeded_wire (hw x List.mem_cons_self) (hs x List.mem_cons_self)).1 (hf x List.mem_cons_self),
      ih (fun z hz => hw z (List.mem_cons_of_mem _ hz)) (fun z hz => hf z (List.mem_cons_of_mem _ hz)) (fun z hz => hs z (List.mem_cons_of_mem _ hz))]

/-- C101, partial: whatever part of what the server has sent has arrived, the client reads a beginning of the answers the server gave, in order and each as it was given: status, header
fields, length and body; the rest of what has arrived is the beginning of the next answer.  If all writes were successful and all has arrived, these are all answers and nothing
else.  Missing: writes whose first `sendmsg` ends within the last element of the response, see `client_reads_exactly` and `wrong_answer`. -/
theorem client_reads_partial (hmem : mem ≠ []) (h : Reach quiet H c mem sys) (hs : Initialised ns s) (ha : Answers s rs sys.writes) (hr : ∀ r ∈ rs, r.Ok)
    (hf : ∀ x ∈ sys.writes, FirstEndsEarly x.chain x.answers) (hok : ∀ x ∈ sys.writes.dropLast, Succeeded x) :
    (∀ arrived, arrived <+: sys.sock.outgoing →
      ∃ k, (responses arrived).1 = (rs.map (Reply.expected s ns)).take k ∧
        (k = rs.length ∨ ∃ x, sys.writes[k]? = some x ∧ (responses arrived).2 <+: x.asked ∧ (responses arrived).2 ≠ x.asked)) ∧
      ((∀ x ∈ sys.writes, Succeeded x) → responses sys.sock.outgoing = (rs.map (Reply.expected s ns), [])) := by
  obtain ⟨w1, w2⟩ := writes_ok hmem h
  have hall := answers_are hs ha hr
  refine ⟨fun p hp => ?_, fun hsucc => ?_⟩
  · rw [w1] at hp
    obtain ⟨k, k1, -, k3⟩ := responses_prefix hall p (hp.trans (wires_prefix _ w2 hf hok))
    refine ⟨k, k1, ?_⟩
    rcases k3 with k3 | ⟨w, g1, g2, g3⟩
    · left
      rw [k3, List.length_map]
      clear k1 k3 hall hp hr w1 w2 hf hok h
      generalize sys.writes = xs at ha
      induction ha with
      | nil => rfl
      | cons _ _ ih => rw [List.length_cons, List.length_cons, ih]
    · right
      rw [List.getElem?_map, Option.map_eq_some_iff] at g1
      obtain ⟨x, x1, x2⟩ := g1
      exact ⟨x, x1, (by rw [x2]; exact g2), (by rw [x2]; exact g3)⟩
  · rw [w1, wires_all _ w2 hf hsucc]
    have := responses_complete hall [] readOne_nil
    rwa [List.append_nil] at this

/-- How often an answer is sent: twice, if the first `sendmsg` of its write ended within the last element. -/
inductive Copies (s : Server) (ns : Nat) : List Reply → List Write → List Response → Prop
  | nil : Copies s ns [] [] []
  | once {r : Reply} {x : Write} {rs : List Reply} {xs : List Write} {l : List Response} (h : FirstEndsEarly x.chain x.answers) (t : Copies s ns rs xs l) :
      Copies s ns (r :: rs) (x :: xs) (r.expected s ns :: l)
  | twice {r : Reply} {x : Write} {rs : List Reply} {xs : List Write} {l : List Response} (h : ¬ FirstEndsEarly x.chain x.answers) (t : Copies s ns rs xs l) :
      Copies s ns (r :: rs) (x :: xs) (r.expected s ns :: r.expected s ns :: l)

/-- C101, exactly: whatever the operating system does, if all writes are reported as successful, the client reads the answers in order, each of them once or, if the first `sendmsg` of
its write ended within the last element, twice. -/
theorem client_reads_exactly (hmem : mem ≠ []) (h : Reach quiet H c mem sys) (hs : Initialised ns s) (ha : Answers s rs sys.writes) (hr : ∀ r ∈ rs, r.Ok)
    (hok : ∀ x ∈ sys.writes, Succeeded x) : ∃ l, Copies s ns rs sys.writes l ∧ responses sys.sock.outgoing = (l, []) := by
  obtain ⟨w1, w2⟩ := writes_ok hmem h
  rw [w1]
  clear w1 h
  generalize sys.writes = xs at ha w2 hok
  induction ha with
  | nil => exact ⟨[], .nil, rfl⟩
  | cons h t ih =>
    rename_i r x rs xs
    obtain ⟨l, l1, l2⟩ := ih (fun r hm => hr r (List.mem_cons_of_mem _ hm)) (fun x hm => w2 x (List.mem_cons_of_mem _ hm)) (fun x hm => hok x (List.mem_cons_of_mem _ hm))
    have his : readOne x.asked = some (r.expected s ns, []) := reply_is hs (hr _ List.mem_cons_self) h
    obtain ⟨q1, q2⟩ := succeeded_wire (w2 x List.mem_cons_self) (hok x List.mem_cons_self)
    rw [List.flatMap_cons]
    by_cases he : FirstEndsEarly x.chain x.answers
    · refine ⟨_, .once he l1, ?_⟩
      rw [q1 he, responses_cons (readOne_append _ his), List.nil_append, l2]
    · refine ⟨_, .twice he l1, ?_⟩
      rw [q2 he, List.append_assoc, responses_cons (readOne_append _ his), List.nil_append, responses_cons (readOne_append _ his), List.nil_append, l2]

/-- C101 is false: if the first `sendmsg` of the first answer ends within the last element, the client, having sent two requests, takes the answer to the first for the answer to the
second; all writes have been reported as successful. -/
theorem wrong_answer (hmem : mem ≠ []) (h : Reach quiet H c mem sys) (hs : Initialised ns s) {r1 r2 : Reply} {x1 x2 : Write} (hw : sys.writes = [x1, x2]) (ha : Answers s [r1, r2] [x1, x2])
    (hr1 : r1.Ok) (hr2 : r2.Ok) (hok1 : Succeeded x1) (hok2 : Succeeded x2) (hf : ¬ FirstEndsEarly x1.chain x1.answers) :
    (responses sys.sock.outgoing).1[1]? = some (r1.expected s ns) := by
  obtain ⟨l, l1, l2⟩ := client_reads_exactly hmem h hs (rs := [r1, r2]) (by rw [hw]; exact ha) (by simp [hr1, hr2]) (by rw [hw]; simp [hok1, hok2])
  rw [hw] at l1
  rw [l2]
  cases l1 with
  | once g _ => exact absurd g hf
  | twice _ _ => rfl

end

end Cio.HttpTcp
