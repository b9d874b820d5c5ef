import Verif.WsQueue.FrameSeqStep
import Verif.WsQueue.Neg
/-
C24, C45: the frames sent form a sequence RFC 6455 allows, and message frames are sent without gaps in the order of the calls.
-/
namespace Cio.WsQueue

/-- A frame, or a further chunk of one (`cont`), on its way to the transport. -/
structure Fr where
  kind : Kind
  cont : Bool
  opcode : Nat
  fin : Bool
  announced : Nat
  size : Nat
deriving DecidableEq, Repr

/-- The frames and further chunks sent before a close frame, oldest first. -/
def framesBC : List Ev → List Fr
  | [] => []
  | .sent k _ c o f a p :: l => if k = .close ∨ .close ∈ sentK l then framesBC l else framesBC l ++ [⟨k, c, o, f, a, total p⟩]
  | _ :: l => framesBC l

/-- RFC 6455 sections 5.4 and 5.5 (`idle`: no fragmented message in progress): control frames are whole, with their opcode, of at most 125 bytes;
a message frame starts a message (opcode 1 or 2) if none is in progress and continues it (opcode 0) otherwise, until one with fin. -/
def LegalFrames : Bool → List Fr → Prop
  | _, [] => True
  | idle, f :: fs =>
    match f.kind with
    | .ping => f.cont = false ∧ f.opcode = 9 ∧ f.fin = true ∧ f.announced = f.size ∧ f.size ≤ 125 ∧ LegalFrames idle fs
    | .pong => f.cont = false ∧ f.opcode = 10 ∧ f.fin = true ∧ f.announced = f.size ∧ f.size ≤ 125 ∧ LegalFrames idle fs
    | .close => False
    | .message =>
      if f.cont then LegalFrames idle fs
      else (if idle then f.opcode = 1 ∨ f.opcode = 2 else f.opcode = 0) ∧ LegalFrames f.fin fs

def Fr.msg (f : Fr) : List Msg := if f.kind = .message then [(0, f.cont, f.opcode, f.fin)] else []
def noTicket (m : Msg) : Msg := (0, m.2)

theorem fragStep_noTicket (st : Option Bool) (m : Msg) : fragStep st (noTicket m) = fragStep st m := rfl
theorem foldl_none (l : List Msg) : l.foldl fragStep none = none := by
  induction l with
  | nil => rfl
  | cons m l ih => exact ih
theorem foldl_noTicket (st : Option Bool) (l : List Msg) : (l.map noTicket).foldl fragStep st = l.foldl fragStep st := by
  induction l generalizing st with
  | nil => rfl
  | cons m l ih => rw [List.map_cons, List.foldl_cons, List.foldl_cons, fragStep_noTicket, ih]

theorem legal_iff (idle : Bool) (fs : List Fr)
    (h : ∀ f ∈ fs, f.kind ≠ .message → f.kind ≠ .close ∧ f.cont = false ∧ f.opcode = opOf f.kind ∧ f.fin = true ∧ f.announced = f.size ∧ f.size ≤ 125)
    (hm : ((fs.flatMap Fr.msg).foldl fragStep (some idle)).isSome) : LegalFrames idle fs := by
  induction fs generalizing idle with
  | nil => trivial
  | cons f fs ih =>
    have ih := fun idle => ih idle (fun f hf => h f (List.mem_cons_of_mem _ hf))
    have hf := h f List.mem_cons_self
    rw [List.flatMap_cons, List.foldl_append] at hm
    unfold LegalFrames
    cases hk : f.kind with
    | ping =>
      rw [hk] at hf
      obtain ⟨-, h1, h2, h3, h4, h5⟩ := hf (by simp)
      exact ⟨h1, h2, h3, h4, h5, ih idle (by simpa [Fr.msg, hk] using hm)⟩
    | pong =>
      rw [hk] at hf
      obtain ⟨-, h1, h2, h3, h4, h5⟩ := hf (by simp)
      exact ⟨h1, h2, h3, h4, h5, ih idle (by simpa [Fr.msg, hk] using hm)⟩
    | close => rw [hk] at hf; exact absurd rfl (hf (by simp)).1
    | message =>
      simp only [Fr.msg, hk, if_true, List.foldl_cons, List.foldl_nil] at hm
      cases hc : f.cont with
      | true =>
        rw [hc] at hm
        exact ih idle (by simpa [fragStep] using hm)
      | false =>
        rw [hc] at hm
        simp only [Bool.false_eq_true, if_false]
        cases idle with
        | true =>
          by_cases ho : f.opcode = 1 ∨ f.opcode = 2
          · exact ⟨by simpa using ho, ih f.fin (by simpa [fragStep, ho] using hm)⟩
          · simp [fragStep, ho, foldl_none] at hm
        | false =>
          by_cases ho : f.opcode = 0
          · exact ⟨by simpa using ho, ih f.fin (by simpa [fragStep, ho] using hm)⟩
          · simp [fragStep, ho, foldl_none] at hm

theorem framesBC_mem {l : List Ev} {f : Fr} (h : f ∈ framesBC l) : f.kind ≠ .close ∧ ∃ hd p, .sent f.kind hd f.cont f.opcode f.fin f.announced p ∈ l ∧ f.size = total p := by
  induction l with
  | nil => cases h
  | cons e l ih =>
    have key : f ∈ framesBC l → f.kind ≠ .close ∧ ∃ hd p, .sent f.kind hd f.cont f.opcode f.fin f.announced p ∈ e :: l ∧ f.size = total p := fun h => by
      obtain ⟨h1, hd, p, h2, h3⟩ := ih h
      exact ⟨h1, hd, p, List.mem_cons_of_mem _ h2, h3⟩
    cases e with
    | sent k hd c o fi a p =>
      simp only [framesBC] at h
      split at h
      · exact key h
      · rename_i hn
        rcases List.mem_append.mp h with h | h
        · exact key h
        · simp only [List.mem_singleton] at h
          subst h
          exact ⟨fun hk => hn (.inl hk), hd, p, List.mem_cons_self, rfl⟩
    | _ => exact key h

theorem framesBC_msgs {l : List Ev} (h : ∀ h c o f a p, .sent .message h c o f a p ∈ l → ∃ t, h = .user t) :
    (framesBC l).flatMap Fr.msg = (sentMBC l).map noTicket := by
  induction l with
  | nil => rfl
  | cons e l ih =>
    have ih := ih (fun h' c o f a p hm => h h' c o f a p (List.mem_cons_of_mem _ hm))
    cases e with
    | sent k hd c o f a p =>
      cases k with
      | message =>
        obtain ⟨t, rfl⟩ := h hd c o f a p List.mem_cons_self
        simp only [framesBC, sentMBC]
        by_cases hc : Kind.close ∈ sentK l
        · rw [if_pos (.inr hc), if_pos hc, ih]
        · rw [if_neg (by simp [hc]), if_neg hc, List.flatMap_append, ih, List.map_append]
          rfl
      | close => simp only [framesBC, true_or, if_true]; exact ih
      | ping =>
        simp only [framesBC]
        split
        · exact ih
        · rw [List.flatMap_append, ih]; simp [Fr.msg, sentMBC]
      | pong =>
        simp only [framesBC]
        split
        · exact ih
        · rw [List.flatMap_append, ih]; simp [Fr.msg, sentMBC]
    | _ => exact ih

/-- C45, the order of frames: whatever the user, the peer and the transport do, the frames sent before a close frame are a sequence RFC 6455 allows. -/
theorem frames_legal_partial {s : State} (h : Reach s) (hc : Clean s) : LegalFrames true (framesBC s.w.log) := by
  have l := (reach_LS h hc).1
  refine legal_iff _ _ ?_ ?_
  · intro f hf hk
    obtain ⟨h1, hd, p, h2, h3⟩ := framesBC_mem hf
    obtain ⟨e1, e2, e3, e4, e5⟩ := l.ev _ _ _ _ _ _ _ h2 hk
    exact ⟨h1, e1, e2, e3, by rw [h3]; exact e4, by rw [h3, ← e4]; exact e5⟩
  · rw [framesBC_msgs l.um, foldl_noTicket]
    obtain ⟨t, ht⟩ := l.pf
    have hfr := l.fr
    rw [← ht, fragAfter, List.foldl_append] at hfr
    cases hx : (sentMBC s.w.log).foldl fragStep (some true) with
    | some b => rfl
    | none => rw [hx, foldl_none] at hfr; cases hfr

/-- C24: message frames are sent in the order of the calls without leaving one out, up to the first close frame. -/
theorem messages_without_gap_partial {s : State} (h : Reach s) (hc : Clean s) : sentMBC s.w.log <+: accM s.w.log := (reach_LS h hc).1.pf

/-- The hypotheses are met: a binary message in two frames, a ping between them, a text message. -/
def fragmented : List Choice :=
  [A (.call (.first 3 [3] false true)), A (.call (.ping [1])), A (.written .success), A .ret, A .ret, A (.written .success), A .ret, A .ret,
   A (.call (.first 5 [2, 3] true true)), A (.written .success), A .ret, A .ret, A (.call (.first 1 [1] true false))]
set_option maxRecDepth 20000 in
example : okRun {} fragmented = true ∧ Clean (run {} fragmented) ∧ framesBC (run {} fragmented).w.log =
    [⟨.message, false, 2, false, 3, 3⟩, ⟨.ping, false, 9, true, 1, 1⟩, ⟨.message, false, 0, true, 5, 5⟩, ⟨.message, false, 1, true, 1, 1⟩] := by decide

/-- A ping of the peer between two chunks of a frame is answered at once: the pong goes into the middle of the frame. -/
theorem pong_within_frame : ∃ cs, okRun {} cs = true ∧ Clean (run {} cs) ∧ (framesBC (run {} cs).w.log).map (fun f => (f.kind, f.cont, f.announced, f.size)) =
    [(.message, false, 10, 4), (.pong, false, 3, 3), (.message, true, 0, 6)] :=
  ⟨[A (.call .read), A .ret, A (.call (.first 10 [4] true true)), A (.written .success), A .ret, A .ret, A (.gotPing 3), A (.written .success), A .ret, A .ret,
    A (.call (.cont [6]))], by decide +kernel⟩

end Cio.WsQueue
