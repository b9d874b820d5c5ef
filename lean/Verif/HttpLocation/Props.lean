import Verif.HttpLocation.Model
/-
Property theorems for the routing of requests to locations (C25).
-/
namespace Cio.HttpLocation

/-! ### Specification -/

/-- The object `mem` holds the C string `str`. -/
def CString (mem str : List UInt8) : Prop := 0 ∉ str ∧ ∃ rest, mem = str ++ 0 :: rest

/-- A location path serves a request path if it is not empty, is a prefix of it, and the prefix ends at a segment boundary: at the
end of the request path, after a slash (47) or before a slash. -/
def Serves (path target : List UInt8) : Prop :=
  path ≠ [] ∧ ∃ rest, target = path ++ rest ∧ (rest = [] ∨ (∃ p, path = p ++ [(47 : UInt8)]) ∨ ∃ r, rest = (47 : UInt8) :: r)


/-! ### Helpers -/

theorem strlen_cstring {mem str : List UInt8} (h : CString mem str) : strlen mem = some str.length := by
  obtain ⟨h0, rest, rfl⟩ := h
  induction str with
  | nil => simp [strlen]
  | cons b bs ih =>
    simp only [List.mem_cons, not_or] at h0
    simp only [List.cons_append, strlen, if_neg (fun h => h0.1 h.symm : ¬ b = 0), ih h0.2, Option.map_some, List.length_cons]

theorem memEq_prefix (t p rest : List UInt8) (h : p.length ≤ t.length) :
    ∃ b, memEq t (p ++ rest) p.length = some b ∧ (b = true ↔ ∃ r, t = p ++ r) := by
  induction p generalizing t with
  | nil => exact ⟨true, by simp [memEq], by simp⟩
  | cons b bs ih =>
    cases t with
    | nil => simp at h
    | cons c cs =>
      simp only [List.length_cons, Nat.add_le_add_iff_right] at h
      obtain ⟨r, h1, h2⟩ := ih cs h
      refine ⟨c == b && r, by simp only [List.length_cons, List.cons_append, memEq, h1, Option.map_some], ?_⟩
      by_cases hcb : c = b
      · subst hcb; simpa using h2
      · simp [hcb]

theorem locationMatch_spec {mem path : List UInt8} (h : CString mem path) (target : List UInt8) :
    ∃ b, locationMatch mem path.length target target.length = some b ∧ (b = true ↔ Serves path target) := by
  obtain ⟨h0, rest, rfl⟩ := h
  unfold locationMatch
  by_cases hp : path = []
  · subst hp
    exact ⟨false, rfl, by simp [Serves]⟩
  have hpl : path.length ≠ 0 := by simpa using hp
  by_cases ht : target.length < path.length
  · refine ⟨false, by simp [hpl, ht], ?_⟩
    simp only [Bool.false_eq_true, false_iff]
    rintro ⟨_, r, rfl, _⟩
    simp at ht; omega
  simp only [hpl, ht, if_false]
  obtain ⟨q, hq, hqs⟩ := memEq_prefix target path (0 :: rest) (by omega)
  rw [hq]
  by_cases hpre : ∃ r, target = path ++ r
  · obtain rfl : q = true := hqs.mpr hpre
    obtain ⟨r, rfl⟩ := hpre
    have hl : (path ++ 0 :: rest)[path.length - 1]? = path.getLast? := by
      rw [List.getElem?_append_left (by omega), List.getLast?_eq_getElem?]
    have hr : (path ++ r)[path.length]? = r[0]? := by
      rw [List.getElem?_append_right (by omega), Nat.sub_self]
    rw [hl, hr]
    obtain ⟨init, last, hp'⟩ : ∃ i l, path = i ++ [l] := ⟨path.dropLast, path.getLast hp, (List.dropLast_concat_getLast hp).symm⟩
    subst hp'
    have hserves : Serves (init ++ [last]) (init ++ [last] ++ r) ↔ r = [] ∨ last = slash ∨ ∃ r', r = slash :: r' := by
      constructor
      · rintro ⟨_, r', h1, h2⟩
        have := List.append_cancel_left h1
        subst this
        rcases h2 with h2 | ⟨p, h2⟩ | h2
        · exact .inl h2
        · exact .inr (.inl (by
            have := (List.append_inj' h2 rfl).2
            simpa [slash] using this))
        · exact .inr (.inr h2)
      · rintro h
        refine ⟨by simp, r, rfl, ?_⟩
        rcases h with h | h | h
        · exact .inl h
        · exact .inr (.inl ⟨init, by rw [h]; rfl⟩)
        · exact .inr (.inr h)
    rw [hserves]
    cases r with
    | nil => exact ⟨true, by simp, by simp⟩
    | cons c cs =>
      refine ⟨decide (last = slash ∨ c = slash), ?_, by simp⟩
      by_cases h1 : last = slash
      · simp [h1]
      · by_cases h2 : c = slash <;> simp [h1, h2]
  · obtain rfl : q = false := by
      cases q with
      | false => rfl
      | true => exact absurd (hqs.mp rfl) hpre
    refine ⟨false, by simp, ?_⟩
    simp only [Bool.false_eq_true, false_iff]
    rintro ⟨_, r, h1, _⟩
    exact hpre ⟨r, h1⟩

/-- The heap links exactly the objects `l`, in this order, from `first` on. -/
inductive Linked (heap : Nat → Loc) : Option Nat → List Nat → Prop
  | nil (first : Option Nat) : Linked heap first []
  | cons (a : Nat) (as : List Nat) (h : Linked heap (heap a).next as) : Linked heap (some a) (a :: as)

/-- `best` is the answer among the objects `seen`: of those that serve the target it has the longest path, and it is the first of
that length. -/
def Best (path : Nat → List UInt8) (target : List UInt8) (seen : List Nat) : Option Nat → Nat → Prop
  | none, n => n = 0 ∧ ∀ a ∈ seen, ¬ Serves (path a) target
  | some b, n => n = (path b).length ∧ Serves (path b) target ∧
      ∃ pre post, seen = pre ++ b :: post ∧
        (∀ a ∈ pre, Serves (path a) target → (path a).length < (path b).length) ∧
        (∀ a ∈ post, Serves (path a) target → (path a).length ≤ (path b).length)

theorem Serves.pos {p t : List UInt8} (h : Serves p t) : 0 < p.length := by
  have := h.1
  cases p with
  | nil => exact absurd rfl this
  | cons => simp

theorem findLoop_spec (heap : Nat → Loc) (path : Nat → List UInt8) (target : List UInt8) (l seen : List Nat)
    (first best : Option Nat) (n : Nat) (hl : Linked heap first l) (hc : ∀ a ∈ l, CString (heap a).path (path a))
    (hb : Best path target seen best n) :
    ∃ r m, findLoop heap target l.length first best n = some r ∧ Best path target (seen ++ l) r m := by
  induction l generalizing first best n seen with
  | nil => exact ⟨best, n, rfl, by simpa using hb⟩
  | cons a as ih =>
    cases hl with
    | cons _ _ hl =>
    have hca := hc a (by simp)
    have hcas : ∀ x ∈ as, CString (heap x).path (path x) := fun x hx => hc x (by simp [hx])
    obtain ⟨b, hm, hbs⟩ := locationMatch_spec hca target
    simp only [List.length_cons, findLoop, Option.bind_eq_bind, Option.bind_some, strlen_cstring hca, hm]
    have happ : seen ++ a :: as = (seen ++ [a]) ++ as := by simp
    rw [happ]
    by_cases hcond : b = true ∧ (path a).length > n
    · rw [if_pos (by simpa using hcond)]
      apply ih (seen ++ [a]) _ _ _ hl hcas
      have hsrv := hbs.mp hcond.1
      refine ⟨rfl, hsrv, seen, [], rfl, ?_, by simp⟩
      intro x hx hxs
      cases best with
      | none => exact absurd hxs (hb.2 x hx)
      | some y =>
        obtain ⟨h1, _, pre, post, rfl, h4, h5⟩ := hb
        simp only [List.mem_append, List.mem_cons] at hx
        rcases hx with hx | hx | hx
        · have := h4 x hx hxs; omega
        · subst hx; omega
        · have := h5 x hx hxs; omega
    · rw [if_neg (by simpa using hcond)]
      apply ih (seen ++ [a]) _ _ _ hl hcas
      cases best with
      | none =>
        refine ⟨hb.1, fun x hx hxs => ?_⟩
        simp only [List.mem_append, List.mem_singleton] at hx
        rcases hx with hx | hx
        · exact hb.2 x hx hxs
        · subst hx
          exact hcond ⟨hbs.mpr hxs, by rw [hb.1]; exact hxs.pos⟩
      | some y =>
        obtain ⟨h1, h2, pre, post, rfl, h4, h5⟩ := hb
        refine ⟨h1, h2, pre, post ++ [a], by simp, h4, ?_⟩
        intro x hx hxs
        simp only [List.mem_append, List.mem_singleton] at hx
        rcases hx with hx | hx
        · exact h5 x hx hxs
        · subst hx
          have : ¬ (path x).length > n := fun h => hcond ⟨hbs.mpr hxs, h⟩
          omega

theorem Linked.congr {heap heap' : Nat → Loc} {first : Option Nat} {l : List Nat} (h : Linked heap first l)
    (he : ∀ a ∈ l, heap' a = heap a) : Linked heap' first l := by
  induction h with
  | nil f => exact .nil f
  | cons a as h ih =>
    have h1 := ih (fun x hx => he x (by simp [hx]))
    refine .cons a as ?_
    rw [he a (by simp)]
    exact h1

theorem registerAll_linked (s : Server) (l reg : List Nat) (hl : Linked s.heap s.first l) (hn : s.num = l.length)
    (hd : (reg.reverse ++ l).Nodup) :
    Linked (registerAll s reg).heap (registerAll s reg).first (reg.reverse ++ l) ∧
      (registerAll s reg).num = (reg.reverse ++ l).length ∧ ∀ a, ((registerAll s reg).heap a).path = (s.heap a).path := by
  induction reg generalizing s l with
  | nil => exact ⟨hl, hn, fun _ => rfl⟩
  | cons a as ih =>
    simp only [List.reverse_cons, List.append_assoc, List.singleton_append] at hd ⊢
    have hd' : a ∉ l := by
      have h1 : (a :: l).Nodup := (List.nodup_append.mp hd).2.1
      exact (List.nodup_cons.mp h1).1
    have := ih (register s (some a)).2 (a :: l) (by
      refine .cons a l ?_
      simp only [register, if_true]
      refine hl.congr ?_
      intro x hx
      have : x ≠ a := fun h => hd' (h ▸ hx)
      simp [this]) (by simp [register, hn]) hd
    simp only [registerAll]
    refine ⟨this.1, this.2.1, fun x => ?_⟩
    rw [this.2.2 x]
    by_cases hx : x = a <;> simp [register, hx]

/-! ### Properties -/

/-- C25.  A server with the locations `reg` (distinct objects, registered in this order, each holding a C string as its path)
routes a request path as follows, and never reads outside of an object on the way: it answers 404 exactly if no registered path
serves it; otherwise the location it picks serves it, no other registered location that serves it has a longer path, and of those
with the same path the last one registered is picked. -/
theorem routed_to_longest_match (heap : Nat → Loc) (path : Nat → List UInt8) (reg : List Nat) (hd : reg.Nodup)
    (hc : ∀ a ∈ reg, CString (heap a).path (path a)) (target : List UInt8) :
    ∃ r, route (registerAll (init heap) reg) target = some r ∧
      match r with
      | .notFound => ∀ a ∈ reg, ¬ Serves (path a) target
      | .handler b => Serves (path b) target ∧ (∀ a ∈ reg, Serves (path a) target → (path a).length ≤ (path b).length) ∧
          ∃ earlier later, reg = earlier ++ b :: later ∧ ∀ a ∈ later, path a ≠ path b := by
  obtain ⟨h1, h2, h3⟩ := registerAll_linked (init heap) [] reg (.nil _) rfl (by rw [List.append_nil]; exact (List.reverse_perm reg).nodup_iff.mpr hd)
  rw [List.append_nil] at h1 h2
  obtain ⟨r, m, hr, hb⟩ := findLoop_spec _ path target reg.reverse [] _ none 0 h1
    (fun a ha => by rw [h3]; exact hc a (by simpa using ha)) ⟨rfl, by simp⟩
  have hfl : findLocation (registerAll (init heap) reg) target = some r := by
    unfold findLocation
    rw [h2]
    exact hr
  rw [List.nil_append] at hb
  cases r with
  | none =>
    refine ⟨.notFound, by simp [route, hfl], ?_⟩
    intro a ha
    exact hb.2 a (by simpa using ha)
  | some b =>
    refine ⟨.handler b, by simp [route, hfl], ?_⟩
    obtain ⟨_, h5, pre, post, h6, h7, h8⟩ := hb
    have hreg : reg = post.reverse ++ b :: pre.reverse := by
      have := congrArg List.reverse h6
      simpa using this
    refine ⟨h5, ?_, post.reverse, pre.reverse, hreg, ?_⟩
    · intro a ha hs
      rw [hreg] at ha
      simp only [List.mem_append, List.mem_reverse, List.mem_cons] at ha
      rcases ha with ha | ha | ha
      · exact h8 a ha hs
      · subst ha; exact Nat.le_refl _
      · exact Nat.le_of_lt (h7 a ha hs)
    · intro a ha he
      have := h7 a (by simpa using ha) (by rw [he]; exact h5)
      rw [he] at this
      omega

/-- Two paths that serve the same request and have the same length are equal, so the answer above is determined by the paths. -/
theorem serves_same_length {p q t : List UInt8} (hp : Serves p t) (hq : Serves q t) (h : p.length = q.length) : p = q := by
  obtain ⟨_, r, rfl, _⟩ := hp
  obtain ⟨_, r', h1, _⟩ := hq
  exact (List.append_inj h1 h).1

/-- Registering and initialising with a missing argument is refused and changes nothing. -/
theorem register_refused (s : Server) : register s none = (INVALID_ARGUMENT, s) := rfl

theorem locationInit_refused (heap : Nat → Loc) (location : Option Nat) (path : Option (List UInt8)) (hg : Bool)
    (h : location = none ∨ path = none ∨ hg = false) : locationInit heap location path hg = (INVALID_ARGUMENT, heap) := by
  rcases h with h | h | h <;> subst h
  · rfl
  · cases location <;> rfl
  · cases location <;> cases path <;> rfl

/-! ### Examples and a negation -/

/-- "/", "/ab", "/ab/" and "/a" as C strings. -/
def exampleHeap : Nat → Loc
  | 0 => ⟨[47, 0], none⟩
  | 1 => ⟨[47, 97, 98, 0], none⟩
  | 2 => ⟨[47, 97, 98, 47, 0], none⟩
  | _ => ⟨[47, 97, 0], none⟩

example : ∀ a ∈ [0, 1, 2, 3], CString (exampleHeap a).path (((exampleHeap a).path).dropLast) := by
  intro a ha
  simp only [List.mem_cons, List.not_mem_nil, or_false] at ha
  rcases ha with rfl | rfl | rfl | rfl <;> exact ⟨by decide, [], rfl⟩

-- "/ab/c" goes to "/ab/", "/ab" to "/ab", "/abc" to "/", "x" to nobody
example : route (registerAll (init exampleHeap) [0, 1, 2, 3]) [47, 97, 98, 47, 99] = some (.handler 2) := by decide
example : route (registerAll (init exampleHeap) [0, 1, 2, 3]) [47, 97, 98] = some (.handler 1) := by decide
example : route (registerAll (init exampleHeap) [0, 1, 2, 3]) [47, 97, 98, 99] = some (.handler 0) := by decide
example : route (registerAll (init exampleHeap) [0, 1, 2, 3]) [120] = some .notFound := by decide

/-- The objects have to be distinct: registering a location object a second time makes the server forget the locations registered
before its first registration (the link of the object is overwritten). -/
theorem register_twice_forgets :
    route (registerAll (init exampleHeap) [0, 1, 3]) [47] = some (.handler 0) ∧
    route (registerAll (init exampleHeap) [0, 1, 3, 1]) [47] = some .notFound := by
  constructor <;> decide

end Cio.HttpLocation
