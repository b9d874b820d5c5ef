import Verif.UartExample.Model
/-
C126: the UART ping-pong example.
-/
namespace Cio.UartExample

/-! ### What shall hold -/

/-- How often something was seen. -/
def times (o : Obs) (r : List Obs × End) : Nat := r.1.count o

/-- Everything that was taken was given back: the loop was destroyed if it was there, the ports that were opened were closed, and this memory was freed, and nothing else was. -/
structure GivenBack (r : List Obs × End) (blocks : List Block) : Prop where
  loop : times .loopDestroy r = times .loopInit r
  port : ∀ s, times (.closed s) r = times (.opened s) r
  memory : ∀ b ∈ blocks, times (.free b) r = times (.alloc b) r

/-- `detect_uart` finds a UART: there are two at least, the memory is there, and the name is among those of the ports. -/
def Finds (d : Detect) (name : String) : Prop := 2 ≤ d.number ∧ d.array = true ∧ (∃ ps, d.ports = some ps ∧ name ∈ ps) ∧ d.copy = true

/-- Nothing that the program calls fails, before its first write. -/
def AllWell (a : Answers) : Prop :=
  a.sigterm = true ∧ a.sigint = true ∧ a.loopInit = true ∧ 2 ≤ a.number ∧ Finds a.d1 "/dev/ttyUSB0" ∧ a.init1 = true ∧ a.setup1 = true ∧ a.client1 = true ∧ a.read1 = true ∧
    Finds a.d2 "/dev/ttyUSB1" ∧ a.init2 = true ∧ a.setup2 = true ∧ a.client2 = true

/-! ### `detect_uart` -/

/-- The four things `detect_uart` can do. -/
theorem detect_cases (s : Side) (name : String) (d : Detect) :
    (detect s name d = ([], false) ∧ ¬ Finds d name) ∨ (detect s name d = ([.alloc (.array s), .free (.array s)], false) ∧ ¬ Finds d name) ∨
      (detect s name d = ([.alloc (.array s), .alloc (.uart s)], true) ∧ Finds d name) := by
  unfold detect Finds
  split
  · next h => exact Or.inl ⟨rfl, fun q => by omega⟩
  · next h =>
    split
    · next h2 => exact Or.inl ⟨rfl, fun q => by rw [h2] at q; exact absurd q.2.1 (by decide)⟩
    · next h2 =>
      split
      · next h3 => exact Or.inr (Or.inl ⟨rfl, fun ⟨_, _, ⟨ps, q, _⟩, _⟩ => by rw [h3] at q; cases q⟩)
      · next ps h3 =>
        split
        · next h4 =>
          refine Or.inr (Or.inl ⟨rfl, fun ⟨_, _, ⟨ps', q, hm⟩, _⟩ => ?_⟩)
          rw [h3] at q
          injection q with q
          subst q
          have := List.find?_eq_none.1 h4 name hm
          simp at this
        · next p h4 =>
          have hp := List.find?_some h4
          have hm := List.mem_of_find?_eq_some h4
          simp only [decide_eq_true_eq] at hp
          subst hp
          split
          · next h5 => exact Or.inr (Or.inl ⟨rfl, fun q => by rw [h5] at q; exact absurd q.2.2.2 (by decide)⟩)
          · next h5 => exact Or.inr (Or.inr ⟨rfl, by omega, by simpa using h2, ⟨ps, h3, hm⟩, by simpa using h5⟩)

/-- C126: `detect_uart` finds the UART exactly if there are two at least, it gets its memory, and a port has the name; then it returns a copy that the caller has to free.  If it does not find it, it
gives back what it took. -/
theorem detect_right (s : Side) (name : String) (d : Detect) :
    ((detect s name d).2 = true ↔ Finds d name) ∧ ((detect s name d).2 = false → (detect s name d).1.count (.alloc (.array s)) = (detect s name d).1.count (.free (.array s)) ∧
      .alloc (.uart s) ∉ (detect s name d).1) := by
  rcases detect_cases s name d with ⟨e, n⟩ | ⟨e, n⟩ | ⟨e, n⟩ <;> rw [e] <;> cases s <;> simp [n]

/-- C126 is false: when `detect_uart` has found the UART it does not free its array, which nobody else knows. -/
theorem array_lost (s : Side) (name : String) (d : Detect) (h : Finds d name) : .alloc (.array s) ∈ (detect s name d).1 ∧ .free (.array s) ∉ (detect s name d).1 := by
  rcases detect_cases s name d with ⟨e, n⟩ | ⟨e, n⟩ | ⟨e, n⟩
  · exact absurd h n
  · exact absurd h n
  · rw [e]; simp

/-! ### The program -/

/-- The ways the second half of the program can end. -/
theorem second_cases (a : Answers) (c : Clients) (hc : c.two = none) (l : List Obs) :
    (∃ m, second a c true l = (l ++ m, .status false) ∧ m ∈ [
      [.closed .first, .free (.uart .first), .loopDestroy],
      [.alloc (.array .second), .free (.array .second), .closed .first, .free (.uart .first), .loopDestroy],
      [.alloc (.array .second), .alloc (.uart .second), .free (.uart .second), .closed .first, .free (.uart .first), .loopDestroy],
      [.alloc (.array .second), .alloc (.uart .second), .opened .second, .closed .second, .free (.uart .second), .closed .first, .free (.uart .first), .loopDestroy]] ∧
        ¬ (Finds a.d2 "/dev/ttyUSB1" ∧ a.init2 = true ∧ a.setup2 = true ∧ a.client2 = true)) ∨
      (second a c true l = (l ++ [.alloc (.array .second), .alloc (.uart .second), .opened .second], .crash) ∧
        Finds a.d2 "/dev/ttyUSB1" ∧ a.init2 = true ∧ a.setup2 = true ∧ a.client2 = true) := by
  unfold second
  rcases detect_cases .second "/dev/ttyUSB1" a.d2 with ⟨e, n⟩ | ⟨e, n⟩ | ⟨e, n⟩ <;> rw [e]
  · exact Or.inl ⟨_, by simp [inits, freeSecond, closeFirst, freeFirst, destroyEv]; rfl, by simp, fun q => n q.1⟩
  · exact Or.inl ⟨_, by simp [inits, freeSecond, closeFirst, freeFirst, destroyEv]; rfl, by simp, fun q => n q.1⟩
  · cases h1 : a.init2
    · exact Or.inl ⟨_, by simp [inits, freeSecond, closeFirst, freeFirst, destroyEv]; rfl, by simp, (fun q => by cases q.2.1)⟩
    cases h2 : a.setup2
    · exact Or.inl ⟨_, by simp [inits, closeUarts, freeSecond, closeFirst, freeFirst, destroyEv]; rfl, by simp, (fun q => by cases q.2.2.1)⟩
    cases h3 : a.client2
    · exact Or.inl ⟨_, by simp [inits, closeUarts, freeSecond, closeFirst, freeFirst, destroyEv]; rfl, by simp, (fun q => by cases q.2.2.2)⟩
    · refine Or.inr ⟨?_, n, rfl, rfl, rfl⟩
      simp [inits, hc]

/-- The ways the program can end. -/
theorem main_cases (a : Answers) :
    ((main a).2 = .status false ∧ ¬ AllWell a ∧ (main a).1 ∈ [[], [.sigDefault], [.loopInit, .loopDestroy], [.loopInit, .alloc (.array .first), .free (.array .first), .loopDestroy],
      [.loopInit, .alloc (.array .first), .alloc (.uart .first), .free (.uart .first), .loopDestroy],
      [.loopInit, .alloc (.array .first), .alloc (.uart .first), .opened .first, .closed .first, .free (.uart .first), .loopDestroy]]) ∨
    ((main a).2 = .status false ∧ ¬ AllWell a ∧ ∃ m, (main a).1 = [.loopInit, .alloc (.array .first), .alloc (.uart .first), .opened .first, .read .first] ++ m ∧ m ∈ [
      [.closed .first, .free (.uart .first), .loopDestroy],
      [.alloc (.array .second), .free (.array .second), .closed .first, .free (.uart .first), .loopDestroy],
      [.alloc (.array .second), .alloc (.uart .second), .free (.uart .second), .closed .first, .free (.uart .first), .loopDestroy],
      [.alloc (.array .second), .alloc (.uart .second), .opened .second, .closed .second, .free (.uart .second), .closed .first, .free (.uart .first), .loopDestroy]]) ∨
    ((main a).2 = .crash ∧ AllWell a ∧ (main a).1 = [.loopInit, .alloc (.array .first), .alloc (.uart .first), .opened .first, .read .first, .alloc (.array .second), .alloc (.uart .second), .opened .second]) := by
  unfold main AllWell
  cases h1 : a.sigterm
  · exact Or.inl ⟨rfl, (fun q => by cases q.1), by simp⟩
  cases h2 : a.sigint
  · exact Or.inl ⟨rfl, (fun q => by cases q.2.1), by simp⟩
  cases h3 : a.loopInit
  · exact Or.inl ⟨rfl, (fun q => by cases q.2.2.1), by simp⟩
  by_cases h4 : a.number < 2
  · exact Or.inl ⟨by simp [h4, destroyEv], (fun q => by have := q.2.2.2.1; omega), by simp [h4, destroyEv]⟩
  have h4' : 2 ≤ a.number := by omega
  rcases detect_cases .first "/dev/ttyUSB0" a.d1 with ⟨e, n⟩ | ⟨e, n⟩ | ⟨e, n⟩ <;> rw [e]
  · exact Or.inl ⟨by simp [h4, inits, freeFirst, destroyEv], fun q => n q.2.2.2.2.1, by simp [h4, inits, freeFirst, destroyEv]⟩
  · exact Or.inl ⟨by simp [h4, inits, freeFirst, destroyEv], fun q => n q.2.2.2.2.1, by simp [h4, inits, freeFirst, destroyEv]⟩
  cases h5 : a.init1
  · exact Or.inl ⟨by simp [h4, inits, freeFirst, destroyEv], (fun q => by cases q.2.2.2.2.2.1), by simp [h4, inits, freeFirst, destroyEv]⟩
  cases h6 : a.setup1
  · exact Or.inl ⟨by simp [h4, inits, closeFirst, freeFirst, destroyEv], (fun q => by cases q.2.2.2.2.2.2.1), by simp [h4, inits, closeFirst, freeFirst, destroyEv]⟩
  cases h7 : a.client1
  · exact Or.inl ⟨by simp [h4, inits, closeFirst, freeFirst, destroyEv], (fun q => by cases q.2.2.2.2.2.2.2.1), by simp [h4, inits, closeFirst, freeFirst, destroyEv]⟩
  cases h8 : a.read1
  · exact Or.inl ⟨by simp [h4, inits, closeFirst, freeFirst, destroyEv], (fun q => by cases q.2.2.2.2.2.2.2.2.1), by simp [h4, inits, closeFirst, freeFirst, destroyEv]⟩
  refine Or.inr ?_
  simp only [Bool.true_eq_false, if_false, if_neg h4, inits, Bool.and_self]
  rcases second_cases a { one := some .first, two := none } rfl ([.loopInit] ++ [.alloc (.array .first), .alloc (.uart .first)] ++ [.opened .first] ++ [.read .first]) with ⟨m, q1, q2, q3⟩ | ⟨q1, q2, q3, q4, q5⟩
  · refine Or.inl ⟨by rw [q1], fun q => q3 ⟨q.2.2.2.2.2.2.2.2.2.1, q.2.2.2.2.2.2.2.2.2.2⟩, m, by rw [q1]; rfl, q2⟩
  · exact Or.inr ⟨by rw [q1], ⟨trivial, trivial, trivial, h4', n, trivial, trivial, trivial, trivial, q2, q3, q4, q5⟩, by rw [q1]; rfl⟩

/-- C126 is false: if nothing fails, the program calls a function of the stream of its second client, which it never set up. -/
theorem crashes_when_all_is_well (a : Answers) : (main a).2 = .crash ↔ AllWell a := by
  rcases main_cases a with ⟨e, n, -⟩ | ⟨e, n, -⟩ | ⟨e, n, -⟩
  · rw [e]; exact ⟨(fun q => nomatch q), fun q => absurd q n⟩
  · rw [e]; exact ⟨(fun q => nomatch q), fun q => absurd q n⟩
  · exact ⟨fun _ => n, fun _ => e⟩

/-- C126 is false: the program never comes to its event loop, writes nothing, and never succeeds. -/
theorem never_plays (a : Answers) : .run ∉ (main a).1 ∧ (∀ s, .write s ∉ (main a).1) ∧ (main a).2 ≠ .status true := by
  rcases main_cases a with ⟨e, -, h⟩ | ⟨e, -, m, h, hm⟩ | ⟨e, -, h⟩
  · refine ⟨?_, fun s => ?_, by rw [e]; decide⟩
    all_goals
      simp only [List.mem_cons, List.not_mem_nil, or_false] at h
      rcases h with h | h | h | h | h | h <;> rw [h] <;> simp
  · refine ⟨?_, fun s => ?_, by rw [e]; decide⟩
    all_goals
      rw [h]
      simp only [List.mem_cons, List.not_mem_nil, or_false] at hm
      rcases hm with h | h | h | h <;> rw [h] <;> simp
  · rw [e, h]
    exact ⟨by simp, fun s => by simp, by decide⟩

/-- C126, partial: when the program ends by returning, the loop was destroyed if it was there, the ports that were opened were closed, once, and the copies of `detect_uart` were freed.
Missing: the arrays of `detect_uart`, for which the claim is false (`array_lost`), and the executions in which nothing fails (`crashes_when_all_is_well`). -/
theorem gives_back_partial (a : Answers) (h : (main a).2 ≠ .crash) : GivenBack (main a) [.uart .first, .uart .second] ∧ (∀ s, times (.opened s) (main a) ≤ 1) ∧ times .loopInit (main a) ≤ 1 := by
  have key : ∀ l : List Obs, (main a).1 = l → (l.count .loopDestroy = l.count .loopInit ∧ (l.count (.closed .first) = l.count (.opened .first) ∧ l.count (.closed .second) = l.count (.opened .second)) ∧
      (l.count (.free (.uart .first)) = l.count (.alloc (.uart .first)) ∧ l.count (.free (.uart .second)) = l.count (.alloc (.uart .second))) ∧
      (l.count (.opened .first) ≤ 1 ∧ l.count (.opened .second) ≤ 1) ∧ l.count .loopInit ≤ 1) →
      GivenBack (main a) [.uart .first, .uart .second] ∧ (∀ s, times (.opened s) (main a) ≤ 1) ∧ times .loopInit (main a) ≤ 1 := by
    rintro l rfl ⟨g1, ⟨g2, g3⟩, ⟨g4, g5⟩, ⟨g6, g7⟩, g8⟩
    refine ⟨⟨g1, fun s => ?_, fun b hb => ?_⟩, fun s => ?_, g8⟩
    · cases s
      · exact g2
      · exact g3
    · simp only [List.mem_cons, List.not_mem_nil, or_false] at hb
      rcases hb with rfl | rfl
      · exact g4
      · exact g5
    · cases s
      · exact g6
      · exact g7
  rcases main_cases a with ⟨-, -, q⟩ | ⟨-, -, m, q, hm⟩ | ⟨e, -, -⟩
  · simp only [List.mem_cons, List.not_mem_nil, or_false] at q
    rcases q with q | q | q | q | q | q <;> exact key _ q (by decide)
  · simp only [List.mem_cons, List.not_mem_nil, or_false] at hm
    rcases hm with r | r | r | r <;> subst r <;> exact key _ q (by decide)
  · exact absurd e h

def prefixes (l : List Obs) : List (List Obs) := (List.range (l.length + 1)).map l.take

/-- Nothing is used after it was given back, or before it was there: of everything the program has, as much is given back at any time as was taken. -/
theorem order (a : Answers) (l m : List Obs) (h : (main a).1 = l ++ m) :
    l.count .loopDestroy ≤ l.count .loopInit ∧ ∀ s, l.count (.closed s) ≤ l.count (.opened s) ∧ l.count (.free (.uart s)) ≤ l.count (.alloc (.uart s)) ∧
      l.count (.free (.array s)) ≤ l.count (.alloc (.array s)) ∧ (.free (.uart s) ∈ l → l.count (.closed s) = l.count (.opened s)) ∧ (.loopDestroy ∈ l → l.count (.closed s) = l.count (.opened s)) := by
  have hl : l ∈ prefixes (main a).1 := List.mem_map.2 ⟨l.length, List.mem_range.2 (by rw [h, List.length_append]; omega), by rw [h, List.take_left']; rfl⟩
  clear h
  have all : ∀ s, ∀ x ∈ prefixes (main a).1, x.count .loopDestroy ≤ x.count .loopInit ∧ x.count (.closed s) ≤ x.count (.opened s) ∧ x.count (.free (.uart s)) ≤ x.count (.alloc (.uart s)) ∧
      x.count (.free (.array s)) ≤ x.count (.alloc (.array s)) ∧ (.free (.uart s) ∈ x → x.count (.closed s) = x.count (.opened s)) ∧ (.loopDestroy ∈ x → x.count (.closed s) = x.count (.opened s)) := by
    intro s
    rcases main_cases a with ⟨-, -, q⟩ | ⟨-, -, m, q, hm⟩ | ⟨-, -, q⟩
    · simp only [List.mem_cons, List.not_mem_nil, or_false] at q
      rcases q with q | q | q | q | q | q <;> rw [q] <;> cases s <;> decide
    · simp only [List.mem_cons, List.not_mem_nil, or_false] at hm
      rw [q]
      rcases hm with r | r | r | r <;> subst r <;> cases s <;> decide
    · rw [q]; cases s <;> decide
  exact ⟨(all .first l hl).1, fun s => (all s l hl).2⟩

/-- A system with both ports. -/
def good : Detect := { number := 2, array := true, ports := some ["/dev/ttyUSB0", "/dev/ttyUSB1"], copy := true }

def fine : Answers :=
  { sigterm := true, sigint := true, loopInit := true, number := 2, d1 := good, init1 := true, setup1 := true, client1 := true, read1 := true, d2 := good, init2 := true, setup2 := true, client2 := true,
    write2 := true, run := true }

/-- There are systems on which nothing fails, and the program crashes there. -/
example : AllWell fine ∧ (main fine).2 = .crash := ⟨⟨rfl, rfl, rfl, by decide, ⟨by decide, rfl, ⟨_, rfl, by decide⟩, rfl⟩, rfl, rfl, rfl, rfl, ⟨by decide, rfl, ⟨_, rfl, by decide⟩, rfl⟩, rfl, rfl, rfl⟩, by decide +kernel⟩

/-- The hypothesis of `gives_back_partial` is met where the second port cannot be opened; both ports' memory was there. -/
example : (main { fine with init2 := false }) = ([.loopInit, .alloc (.array .first), .alloc (.uart .first), .opened .first, .read .first, .alloc (.array .second), .alloc (.uart .second),
    .free (.uart .second), .closed .first, .free (.uart .first), .loopDestroy], .status false) := by decide +kernel

/-- If line 281 set up `client2` (the program does not), the program would play: it would write to the second port, come to its event loop, and report what the loop reports.  Nothing else keeps
it from it. -/
theorem plays_if_set_up (a : Answers) (c : Clients) (s : Side) (found1 : Bool) (l : List Obs) (hc : c.two = some s) (hd : Finds a.d2 "/dev/ttyUSB1") (hi : a.init2 = true)
    (hs : a.setup2 = true) (h2 : a.client2 = true) :
    (second a c found1 l).2 = .status (a.write2 && a.run) ∧
      (second a c found1 l).1 = l ++ [.alloc (.array .second), .alloc (.uart .second), .opened .second] ++ (if a.write2 then [.write s, .run] else []) ++ [.closed .second] ++
        [.free (.uart .second)] ++ [.closed .first] ++ (if found1 then [.free (.uart .first)] else []) ++ [.loopDestroy] := by
  have hf : detect .second "/dev/ttyUSB1" a.d2 = ([.alloc (.array .second), .alloc (.uart .second)], true) := by
    rcases detect_cases .second "/dev/ttyUSB1" a.d2 with ⟨-, g⟩ | ⟨-, g⟩ | g
    · exact absurd hd g
    · exact absurd hd g
    · exact g.1
  cases hw : a.write2 <;> simp [second, hf, inits, hi, hs, h2, hc, hw, closeUarts, freeSecond, closeFirst, freeFirst, destroyEv]

end Cio.UartExample
