import Verif.HttpUrl.Model
/-
C64: the callbacks for the URL of a request.
-/
namespace Cio.HttpUrl
open HttpLocation (Loc Serves CString registerAll)

/- ### Specification -/

/-- The bytes of the URL that a part consists of. -/
def part (target : List UInt8) (u : Parsed) (f : Nat) : List UInt8 := (target.drop (u.off f)).take (u.len f)

/-- Everything the handler wants to know about this URL: the parts the URL has and the handler has a callback for, and then the whole URL.  The parts of a
URL are numbered as in http_parser.h: schema 0, host 1, port 2, path 3, query 4, fragment 5. -/
def wanted (h : Handler) (target : List UInt8) (u : Parsed) : List Call :=
  (if u.fieldSet.testBit 0 ∧ h.onSchema then [⟨.schema, part target u 0⟩] else []) ++
  (if u.fieldSet.testBit 1 ∧ h.onHost then [⟨.host, part target u 1⟩] else []) ++
  (if u.fieldSet.testBit 2 ∧ h.onPort then [⟨.port, part target u 2⟩] else []) ++
  (if u.fieldSet.testBit 3 ∧ h.onPath then [⟨.path, part target u 3⟩] else []) ++
  (if u.fieldSet.testBit 4 ∧ h.onQuery then [⟨.query, part target u 4⟩] else []) ++
  (if u.fieldSet.testBit 5 ∧ h.onFragment then [⟨.fragment, part target u 5⟩] else []) ++
  (if h.onUrl then [⟨.url, target⟩] else [])

/-- The last of these calls wrote a response or returned an error. -/
def Stops (user : User) (calls : List Call) : Prop := (user calls).1 = true ∨ (user calls).2 = .error

/-- `calls` are the first ones of `want`, up to the first that stops. -/
structure UpToStop (user : User) (want calls : List Call) : Prop where
  pre : calls <+: want
  go : ∀ front, front ≠ [] → front <+: calls → front ≠ calls → ¬ Stops user front
  all : calls = want ∨ (calls ≠ [] ∧ Stops user calls)

/- ### Proofs -/

theorem hasField_testBit (u : Parsed) (f : Nat) : hasField u f = u.fieldSet.testBit f := by
  unfold hasField
  rw [Nat.one_shiftLeft]
  by_cases h : u.fieldSet.testBit f = true
  · rw [h]
    have : u.fieldSet &&& 2 ^ f = 2 ^ f := by
      apply Nat.eq_of_testBit_eq
      intro i
      rw [Nat.testBit_and, Nat.testBit_two_pow]
      by_cases hi : f = i
      · subst hi; simp [h]
      · simp [hi]
    simp [this]
  · have hf : u.fieldSet.testBit f = false := by simpa using h
    rw [hf]
    have : u.fieldSet &&& 2 ^ f ≠ 2 ^ f := by
      intro he
      have := congrArg (·.testBit f) he
      simp [Nat.testBit_and, Nat.testBit_two_pow, hf] at this
    simpa using this

/-- What the rest of the code does with what is still wanted. -/
def play (user : User) : List Call → List Call → List Call
  | calls, [] => calls
  | calls, c :: l => if (user (calls ++ [c])).1 = true ∨ (user (calls ++ [c])).2 = .error then calls ++ [c] else play user (calls ++ [c]) l

theorem play_upToStop (user : User) (calls l want : List Call) (hw : want = calls ++ l)
    (hg : ∀ front, front ≠ [] → front <+: calls → ¬ Stops user front) : UpToStop user want (play user calls l) := by
  induction l generalizing calls with
  | nil =>
    subst hw
    refine ⟨by simp [play], fun front h1 h2 _ => hg front h1 (by simpa [play] using h2), Or.inl (by simp [play])⟩
  | cons c l ih =>
    unfold play
    split
    · next h =>
      refine ⟨⟨l, by simp [hw]⟩, ?_, Or.inr ⟨by simp, h⟩⟩
      intro front h1 h2 h3
      apply hg front h1
      rcases List.prefix_concat_iff.1 h2 with h4 | h4
      · exact absurd h4 h3
      · exact h4
    · next h =>
      refine ih _ (by simp [hw]) ?_
      intro front h1 h2
      rcases List.prefix_concat_iff.1 h2 with h4 | h4
      · subst h4; exact h
      · exact hg front h1 h4

/-- The wanted parts of a list of parts. -/
def wantedOf (target : List UInt8) (u : Parsed) (l : List (Nat × Name × Bool)) : List Call :=
  l.flatMap fun p => if u.fieldSet.testBit p.1 ∧ p.2.2 then [⟨p.2.1, part target u p.1⟩] else []

theorem callParts_fired (user : User) (target : List UInt8) (u : Parsed) (l : List (Nat × Name × Bool)) (calls : List Call) :
    callParts user target u l ⟨true, calls⟩ = (⟨true, calls⟩, true) := by
  induction l with
  | nil => rfl
  | cons p l ih =>
    obtain ⟨f, name, set⟩ := p
    have h1 : callPart user target u f name set ⟨true, calls⟩ = (⟨true, calls⟩, .success) := by
      unfold callPart dataCallback
      split <;> simp
    rw [callParts, h1]
    exact ih

/-- How `callParts` ends: nothing stopped, or the last call did. -/
inductive Ended (user : User) (calls want rest : List Call) : St × Bool → Prop where
  | through (calls' : List Call) (h : play user calls (want ++ rest) = play user calls' rest)
      (hg : calls' = [] ∨ ¬ Stops user calls') : Ended user calls want rest (⟨false, calls'⟩, true)
  | stopped (front : List Call) (c : Call) (ok : Bool) (hn : c.name ≠ .url) (h : play user calls (want ++ rest) = front ++ [c])
      (hs : Stops user (front ++ [c])) (he : ok = false ↔ (user (front ++ [c])).2 = .error) :
      Ended user calls want rest (⟨(user (front ++ [c])).1, front ++ [c]⟩, ok)

theorem callParts_ended (user : User) (target : List UInt8) (u : Parsed) (l : List (Nat × Name × Bool)) (hl : ∀ p ∈ l, p.2.1 ≠ .url) (calls rest : List Call)
    (hg : calls = [] ∨ ¬ Stops user calls) : Ended user calls (wantedOf target u l) rest (callParts user target u l ⟨false, calls⟩) := by
  induction l generalizing calls with
  | nil => exact .through calls rfl hg
  | cons p l ih =>
    obtain ⟨f, name, set⟩ := p
    have ih := fun calls => ih (fun p hp => hl p (List.mem_cons_of_mem _ hp)) calls
    have hname : name ≠ .url := hl (f, name, set) List.mem_cons_self
    by_cases hw : u.fieldSet.testBit f = true ∧ set = true
    · have hwant : wantedOf target u ((f, name, set) :: l) = ⟨name, part target u f⟩ :: wantedOf target u l := by
        simp [wantedOf, hw]
      have hcall : callPart user target u f name set ⟨false, calls⟩ =
          (⟨(user (calls ++ [⟨name, part target u f⟩])).1, calls ++ [⟨name, part target u f⟩]⟩, (user (calls ++ [⟨name, part target u f⟩])).2) := by
        unfold callPart dataCallback slice part
        rw [hasField_testBit, if_pos hw.1]
        simp [hw.2]
      rw [hwant, callParts, hcall]
      generalize part target u f = data
      by_cases hs : (user (calls ++ [⟨name, data⟩])).1 = true ∨ (user (calls ++ [⟨name, data⟩])).2 = .error
      · have hp : play user calls (⟨name, data⟩ :: wantedOf target u l ++ rest) = calls ++ [⟨name, data⟩] := by
          rw [List.cons_append, play, if_pos hs]
        cases hr : (user (calls ++ [⟨name, data⟩])).2 with
        | error => exact .stopped calls ⟨name, data⟩ false hname hp hs (by simp [hr])
        | success =>
          have hf : (user (calls ++ [⟨name, data⟩])).1 = true := by simpa [hr] using hs
          dsimp only
          rw [hf, callParts_fired]
          have k := Ended.stopped (rest := rest) (want := ⟨name, data⟩ :: wantedOf target u l) calls ⟨name, data⟩ true hname hp hs (by simp [hr])
          rw [hf] at k
          exact k
        | skipBody =>
          have hf : (user (calls ++ [⟨name, data⟩])).1 = true := by simpa [hr] using hs
          dsimp only
          rw [hf, callParts_fired]
          have k := Ended.stopped (rest := rest) (want := ⟨name, data⟩ :: wantedOf target u l) calls ⟨name, data⟩ true hname hp hs (by simp [hr])
          rw [hf] at k
          exact k
      · have hf : (user (calls ++ [⟨name, data⟩])).1 = false := by simpa using fun h => hs (Or.inl h)
        have hp : play user calls (⟨name, data⟩ :: wantedOf target u l ++ rest) = play user (calls ++ [⟨name, data⟩]) (wantedOf target u l ++ rest) := by
          rw [List.cons_append, play, if_neg hs]
        have key : Ended user calls (⟨name, data⟩ :: wantedOf target u l) rest (callParts user target u l ⟨false, calls ++ [⟨name, data⟩]⟩) := by
          have hi := ih (calls ++ [(⟨name, data⟩ : Call)]) (Or.inr (fun h => hs h))
          generalize callParts user target u l ⟨false, calls ++ [⟨name, data⟩]⟩ = r at hi
          cases hi with
          | through calls' h hg => exact .through calls' (hp.trans h) hg
          | stopped front c ok hn h hs he => exact .stopped front c ok hn (hp.trans h) hs he
        rw [hf]
        cases hr : (user (calls ++ [⟨name, data⟩])).2 with
        | error => exact absurd (Or.inr hr) hs
        | success => exact key
        | skipBody => exact key
    · have hwant : wantedOf target u ((f, name, set) :: l) = wantedOf target u l := by
        simp only [wantedOf, List.flatMap_cons]
        rw [if_neg hw]
        rfl
      have hcall : callPart user target u f name set ⟨false, calls⟩ = (⟨false, calls⟩, .success) := by
        unfold callPart dataCallback
        rw [hasField_testBit]
        split
        · next h1 => simp [show set = false by simpa using fun h => hw ⟨h1, h⟩]
        · rfl
      rw [hwant, callParts, hcall]
      exact ih calls hg

theorem wanted_eq (h : Handler) (target : List UInt8) (u : Parsed) :
    wanted h target u = wantedOf target u (parts h) ++ (if h.onUrl then [⟨.url, target⟩] else []) := by
  simp [wanted, wantedOf, parts, UF_SCHEMA, UF_HOST, UF_PORT, UF_PATH, UF_QUERY, UF_FRAGMENT]

/- ### Properties -/

/-- C64: for a request whose URL was parsed and whose handler is usable, the callbacks of the handler are called with exactly the parts of the URL they are
for, in the order schema, host, port, path, query, fragment, whole URL, each at most once and only for parts the URL has; the calls end with the first one
that writes a response or returns an error and go on otherwise.  The request is given up exactly if the last call returned an error (or, for the whole URL,
anything but success). -/
theorem url_callbacks (s : HttpLocation.Server) (alloc : Nat → Option Handler) (user : User) (target : List UInt8) (u : Parsed) (h : Handler) (l : Nat) (o : Outcome)
    (ho : onUrl s alloc user target (some u) = some o) (hk : o.kind = .ok) (hl : o.location = some l) (ha : alloc l = some h) :
    UpToStop user (wanted h target u) o.calls ∧ (o.fired = true ↔ o.calls ≠ [] ∧ (user o.calls).1 = true) ∧
    (o.ok = false ↔ ∃ front c, o.calls = front ++ [c] ∧ ((user o.calls).2 = .error ∨ (c.name = .url ∧ (user o.calls).2 ≠ .success))) := by
  have hw := wanted_eq h target u
  have hnames : ∀ p ∈ parts h, p.2.1 ≠ .url := by intro p hp; simp [parts] at hp; rcases hp with rfl | rfl | rfl | rfl | rfl | rfl <;> simp
  have hend := callParts_ended user target u (parts h) hnames [] (if h.onUrl then [⟨.url, target⟩] else []) (Or.inl rfl)
  have hup := play_upToStop user [] (wanted h target u) _ rfl (fun front h1 h2 => absurd (List.prefix_nil.1 h2) h1)
  rw [hw, List.nil_append] at hup
  unfold onUrl at ho
  dsimp only at ho
  split at ho
  · cases ho; cases hk
  · split at ho
    · cases ho
    · cases ho; cases hk
    · next l' _ =>
      split at ho
      · cases ho; cases hk
      · next h' ha' =>
        split at ho
        · cases ho; cases hk
        · split at ho
          · cases ho; cases hk
          · have hl' : l' = l := by
              split at ho
              · cases ho; simpa using hl
              · split at ho <;> (cases ho; simpa using hl)
            subst hl'
            obtain rfl : h' = h := by rw [ha] at ha'; exact (Option.some.inj ha').symm
            generalize hr : callParts user target u (parts h') ⟨false, []⟩ = r at hend ho
            rw [hw]
            cases hend with
            | through calls' hp hg =>
              dsimp only at ho
              have hno : ∀ {P : Prop}, calls' ≠ [] → Stops user calls' → P := fun h1 h2 => (hg.elim h1 (fun h3 => h3 h2)).elim
              cases hu : h'.onUrl with
              | false =>
                rw [hu] at ho hp hup
                simp only [Bool.false_eq_true, if_false, List.append_nil, play, Bool.false_and] at hp hup ho
                cases ho
                rw [hp] at hup
                refine ⟨by simpa using hup, ?_, ?_⟩
                · constructor
                  · intro hc; cases hc
                  · rintro ⟨h1, h2⟩; exact hno h1 (Or.inl h2)
                · constructor
                  · intro hc; cases hc
                  · rintro ⟨front, c, h1, h2 | ⟨h2, h3⟩⟩ <;> simp only at h1
                    · exact hno (by rw [h1]; simp) (Or.inr h2)
                    · exfalso
                      have hm : c ∈ wantedOf target u (parts h') := hup.pre.subset (by rw [h1]; simp)
                      simp only [wantedOf, List.mem_flatMap] at hm
                      obtain ⟨p, hp1, hp2⟩ := hm
                      split at hp2
                      · simp only [List.mem_singleton] at hp2
                        subst hp2
                        exact hnames p hp1 h2
                      · cases hp2
              | true =>
                rw [hu] at ho hp hup
                simp only [if_true, Bool.not_false, Bool.and_self, dataCallback] at hp hup ho
                cases ho
                have hp2 : play user calls' [⟨.url, target⟩] = calls' ++ [⟨.url, target⟩] := by
                  rw [play]; split <;> rfl
                rw [hp, hp2] at hup
                refine ⟨hup, by simp, ?_⟩
                simp only [decide_eq_false_iff_not]
                constructor
                · intro hc
                  exact ⟨calls', _, rfl, Or.inr ⟨rfl, hc⟩⟩
                · rintro ⟨front, c, h1, h2 | ⟨h2, h3⟩⟩
                  · rw [h2]; simp
                  · exact h3
            | stopped front c ok hn hp hs he =>
              rw [hp] at hup
              have hfin : o = ⟨.ok, some l', front ++ [c], (user (front ++ [c])).1, ok⟩ := by
                cases ok with
                | false => cases ho; rfl
                | true =>
                  have hf : (user (front ++ [c])).1 = true := by
                    rcases hs with h1 | h1
                    · exact h1
                    · exact absurd (he.2 h1) (by simp)
                  simp only [hf, Bool.not_true, Bool.and_false] at ho
                  cases ho
                  rw [hf]
              subst hfin
              refine ⟨hup, by simp, ?_⟩
              rw [he]
              constructor
              · intro h1; exact ⟨front, c, rfl, Or.inl h1⟩
              · rintro ⟨front', c', h1, h2 | ⟨h2, h3⟩⟩
                · exact h2
                · have := List.append_inj_right' h1 rfl
                  cases this
                  exact absurd h2 hn

/-- C64: a handler has no callbacks exactly if all twelve are NULL; one that was only initialised has none, whatever its memory held before. -/
theorem noCallbacks_iff (h : Handler) : noCallbacks h = true ↔ h = { handlerInit h with free := h.free } := by
  obtain ⟨a1, a2, a3, a4, a5, a6, a7, a8, a9, a10, a11, a12, a13⟩ := h
  unfold noCallbacks handlerInit
  cases a1 <;> cases a2 <;> cases a3 <;> cases a4 <;> cases a5 <;> cases a6 <;> cases a7 <;> cases a8 <;> cases a9 <;> cases a10 <;> cases a11 <;> cases a12 <;> simp

theorem init_noCallbacks (h : Handler) : noCallbacks (handlerInit h) = true ∧ (handlerInit h).free = false := ⟨rfl, rfl⟩

/-- C64, with C25: a server with the locations `reg` (distinct objects, each holding a C string as its path) and a URL of which `path` is the path, which may be
anywhere in it: the handler is asked for from the location with the longest path that serves the request's path; without one the client gets 404 (and no
handler is allocated); a handler that can not be used gets no call, and the client a response (`fired`). -/
theorem url_routed (heap : Nat → Loc) (path : Nat → List UInt8) (reg : List Nat) (hd : reg.Nodup) (hc : ∀ a ∈ reg, CString (heap a).path (path a))
    (alloc : Nat → Option Handler) (user : User) (target : List UInt8) (u : Parsed) (hp : u.fieldSet.testBit 3 = true) :
    ∃ o, onUrl (registerAll (HttpLocation.init heap) reg) alloc user target (some u) = some o ∧
      ((o.location = none ∧ o.kind = .noLocation ∧ o.calls = [] ∧ o.fired = true ∧ o.ok = true ∧ ∀ a ∈ reg, ¬ Serves (path a) (part target u 3)) ∨
       ∃ l, o.location = some l ∧ l ∈ reg ∧ Serves (path l) (part target u 3) ∧
        (∀ a ∈ reg, Serves (path a) (part target u 3) → (path a).length ≤ (path l).length) ∧
        (o.kind = .noHandler ↔ alloc l = none) ∧ (o.kind = .noHandler → o.fired = true ∧ o.ok = true) ∧
        ∀ h, alloc l = some h → (o.kind = .noFree ↔ h.free = false) ∧ (o.kind = .noCallbacks ↔ h.free = true ∧ noCallbacks h = true) ∧
          (o.kind = .ok ↔ h.free = true ∧ noCallbacks h = false) ∧ (o.kind ≠ .ok → o.calls = [] ∧ o.fired = true ∧ o.ok = true)) := by
  obtain ⟨r, hr, hm⟩ := HttpLocation.routed_to_longest_match heap path reg hd hc (part target u 3)
  have hr' : HttpLocation.route (registerAll (HttpLocation.init heap) reg) (slice target (u.off UF_PATH) (u.len UF_PATH)) = some r := hr
  have hf : hasField u UF_PATH = true := by rw [hasField_testBit]; exact hp
  unfold onUrl
  dsimp only
  rw [hf, if_neg (by simp), hr']
  cases r with
  | notFound => exact ⟨_, rfl, Or.inl ⟨rfl, rfl, rfl, rfl, rfl, hm⟩⟩
  | handler l =>
    obtain ⟨h1, h2, e, la, h3, _⟩ := hm
    have hmem : l ∈ reg := by rw [h3]; simp
    dsimp only
    cases ha : alloc l with
    | none => exact ⟨_, rfl, Or.inr ⟨l, rfl, hmem, h1, h2, by simp [ha], by simp, by intro h' hh; rw [ha] at hh; cases hh⟩⟩
    | some h =>
      dsimp only
      cases hfr : h.free with
      | false => exact ⟨_, rfl, Or.inr ⟨l, rfl, hmem, h1, h2, by simp [ha], by simp, by intro h' hh; rw [ha] at hh; cases hh; simp [hfr]⟩⟩
      | true =>
        simp only [Bool.not_true]
        cases hn : noCallbacks h with
        | true => exact ⟨_, rfl, Or.inr ⟨l, rfl, hmem, h1, h2, by simp [ha], by simp, by intro h' hh; rw [ha] at hh; cases hh; simp [hfr, hn]⟩⟩
        | false =>
          simp only [Bool.false_eq_true, if_false]
          generalize callParts user target u (parts h) ⟨false, []⟩ = q
          obtain ⟨st, ok⟩ := q
          have key : ∀ calls f b, ∃ o, some (⟨.ok, some l, calls, f, b⟩ : Outcome) = some o ∧ ((o.location = none ∧ o.kind = .noLocation ∧ o.calls = [] ∧ o.fired = true ∧ o.ok = true ∧ ∀ a ∈ reg, ¬ Serves (path a) (part target u 3)) ∨
              ∃ l, o.location = some l ∧ l ∈ reg ∧ Serves (path l) (part target u 3) ∧ (∀ a ∈ reg, Serves (path a) (part target u 3) → (path a).length ≤ (path l).length) ∧
              (o.kind = .noHandler ↔ alloc l = none) ∧ (o.kind = .noHandler → o.fired = true ∧ o.ok = true) ∧ ∀ h, alloc l = some h → (o.kind = .noFree ↔ h.free = false) ∧ (o.kind = .noCallbacks ↔ h.free = true ∧ noCallbacks h = true) ∧
              (o.kind = .ok ↔ h.free = true ∧ noCallbacks h = false) ∧ (o.kind ≠ .ok → o.calls = [] ∧ o.fired = true ∧ o.ok = true)) :=
            fun calls f b => ⟨_, rfl, Or.inr ⟨l, rfl, hmem, h1, h2, by simp [ha], by simp, by intro h' hh; rw [ha] at hh; cases hh; simp [hfr, hn]⟩⟩
          cases ok with
          | false => exact key _ _ _
          | true =>
            dsimp only
            split <;> exact key _ _ _

/-- C64: a URL that can not be parsed or that has no path is an error, and nobody is called. -/
theorem url_without_path (s : HttpLocation.Server) (alloc : Nat → Option Handler) (user : User) (target : List UInt8) (parsed : Option Parsed)
    (h : ∀ u, parsed = some u → u.fieldSet.testBit 3 = false) :
    onUrl s alloc user target parsed = some { kind := .bad, location := none, calls := [], fired := false, ok := false } := by
  cases parsed with
  | none => rfl
  | some u =>
    have : hasField u UF_PATH = false := by rw [hasField_testBit]; exact h u rfl
    unfold onUrl
    dsimp only
    rw [this, if_pos (show (!false) = true from rfl)]

/- ### A concrete request: `http://h/a?q`, a handler for schema, path, query and the whole URL -/

def exUrl : List UInt8 := [104, 116, 116, 112, 58, 47, 47, 104, 47, 97, 63, 113]
def exParsed : Parsed := ⟨0b11011, fun f => [0, 7, 0, 8, 11][f]?.getD 0, fun f => [4, 1, 0, 2, 1][f]?.getD 0⟩
def exHandler : Handler := ⟨true, true, false, true, true, true, true, false, false, false, false, false, true⟩
def exHeap : Nat → Loc := fun _ => ⟨[47, 97, 0], none⟩

/-- Nobody stops. -/
example : (onUrl (registerAll (HttpLocation.init exHeap) [0]) (fun _ => some exHandler) (fun _ => (false, .success)) exUrl (some exParsed)).map
    (fun o => (o.kind, o.location, o.calls, o.fired, o.ok)) =
    some (.ok, some 0, [⟨.schema, [104, 116, 116, 112]⟩, ⟨.path, [47, 97]⟩, ⟨.query, [113]⟩, ⟨.url, exUrl⟩], false, true) := by decide

/-- The callback for the path writes a response. -/
example : (onUrl (registerAll (HttpLocation.init exHeap) [0]) (fun _ => some exHandler) (fun l => (l.length == 2, .success)) exUrl (some exParsed)).map
    (fun o => (o.kind, o.location, o.calls, o.fired, o.ok)) =
    some (.ok, some 0, [⟨.schema, [104, 116, 116, 112]⟩, ⟨.path, [47, 97]⟩], true, true) := by decide

/-- The callback for the schema returns an error. -/
example : (onUrl (registerAll (HttpLocation.init exHeap) [0]) (fun _ => some exHandler) (fun _ => (false, .error)) exUrl (some exParsed)).map
    (fun o => (o.kind, o.calls, o.fired, o.ok)) = some (.ok, [⟨.schema, [104, 116, 116, 112]⟩], false, false) := by decide

end Cio.HttpUrl
