import Verif.WsQueue.Spec
/-
The queue as a linked list of jobs: how its operations act on the list of queued jobs.
-/
namespace Cio.WsQueue

@[simp] theorem setJob_self (w : World) (k : Kind) (j : Job) : (setJob w k j).jobs k = j := by simp [setJob]
theorem setJob_other (w : World) (k k' : Kind) (j : Job) (h : k' ≠ k) : (setJob w k j).jobs k' = w.jobs k' := by simp [setJob, h]
theorem setJob_jobs (w : World) (k k' : Kind) (j : Job) : (setJob w k j).jobs k' = if k' = k then j else w.jobs k' := rfl

def Linked (jobs : Kind → Job) : List Kind → Prop
  | k :: k' :: r => (jobs k).next = some k' ∧ Linked jobs (k' :: r)
  | _ => True

theorem Linked.congr {jobs jobs' : Kind → Job} {q : List Kind} (h : Linked jobs q) (he : ∀ k ∈ q, (jobs' k).next = (jobs k).next) : Linked jobs' q := by
  induction q with
  | nil => trivial
  | cons k q ih =>
    cases q with
    | nil => trivial
    | cons k' r => exact ⟨by rw [he k List.mem_cons_self]; exact h.1, ih h.2 (fun x hx => he x (List.mem_cons_of_mem _ hx))⟩

theorem Linked.tail {jobs : Kind → Job} {k : Kind} {q : List Kind} (h : Linked jobs (k :: q)) : Linked jobs q := by
  cases q with
  | nil => trivial
  | cons => exact h.2

theorem Linked.append {jobs jobs' : Kind → Job} {q : List Kind} {l k : Kind} (h : Linked jobs q) (hl : q.getLast? = some l) (hn : q.Nodup)
    (he : ∀ x, x ≠ l → (jobs' x).next = (jobs x).next) (hk : (jobs' l).next = some k) : Linked jobs' (q ++ [k]) := by
  induction q with
  | nil => cases hl
  | cons a q ih =>
    cases q with
    | nil => simp at hl; subst hl; exact ⟨hk, trivial⟩
    | cons b r =>
      have hl' : (b :: r).getLast? = some l := by simpa using hl
      refine ⟨?_, ih h.2 hl' (List.nodup_cons.mp hn).2⟩
      rw [he]
      · exact h.1
      · rintro rfl
        exact (List.nodup_cons.mp hn).1 (List.mem_of_getLast? hl')

/-- What is known of a queued job. -/
def Ok (w : World) (k : Kind) : Prop :=
  match k with
  | .message => (∃ t, (w.jobs k).handler = .user t) ∧ (w.jobs k).streamHandler = .messageWritten
  | .ping => (∃ t, (w.jobs k).handler = .user t) ∧ (w.jobs k).streamHandler = .messageWritten
  | .pong => ((∃ t, (w.jobs k).handler = .user t) ∨ (w.jobs k).handler = .pongWritten) ∧ (w.jobs k).streamHandler = .messageWritten
  | .close => ((∃ t, (w.jobs k).handler = .user t) ∧ (w.jobs k).streamHandler = .closeWritten ∧ w.selfClose = true) ∨
      ((w.jobs k).handler = .null ∧ (w.jobs k).streamHandler = .responseCloseWritten ∧ w.selfClose = false) ∨
      ((w.jobs k).handler = .null ∧ w.closedByError = true)

structure Core (w : World) (q : List Kind) : Prop where
  first : w.first = q.head?
  last : q ≠ [] → w.last = q.getLast?
  linked : Linked w.jobs q
  nodup : q.Nodup
  busy : ∀ k ∈ q, (w.jobs k).wbh ≠ none
  free : ∀ k, k ∉ q → k ≠ .close → (w.jobs k).wbh = none
  ok : ∀ k ∈ q, Ok w k
  timer : w.timer = true → w.selfClose = true

def ticketOf : Handler → List Nat
  | .user t => [t]
  | _ => []

/-- The tickets of the queued jobs. -/
def qT (w : World) (q : List Kind) : List Nat := q.flatMap fun k => ticketOf (w.jobs k).handler

theorem qT_congr {w w' : World} {q : List Kind} (h : ∀ k ∈ q, (w'.jobs k).handler = (w.jobs k).handler) : qT w' q = qT w q := by
  unfold qT
  induction q with
  | nil => rfl
  | cons k q ih =>
    rw [List.flatMap_cons, List.flatMap_cons, h k List.mem_cons_self, ih (fun x hx => h x (List.mem_cons_of_mem _ hx))]

theorem qT_cons (w : World) (k : Kind) (q : List Kind) : qT w (k :: q) = ticketOf (w.jobs k).handler ++ qT w q := rfl
theorem qT_append (w : World) (a b : List Kind) : qT w (a ++ b) = qT w a ++ qT w b := by simp [qT]

theorem Ok.congr {w w' : World} {k : Kind} (h : Ok w k) (hh : (w'.jobs k).handler = (w.jobs k).handler)
    (hs : (w'.jobs k).streamHandler = (w.jobs k).streamHandler) (hc : w'.selfClose = w.selfClose) (he : w.closedByError = true → w'.closedByError = true) :
    Ok w' k := by
  cases k <;> simp only [Ok, hh, hs, hc] at h ⊢
  · exact h
  · exact h
  · exact h
  · rcases h with h | h | h
    · exact .inl h
    · exact .inr (.inl h)
    · exact .inr (.inr ⟨h.1, he h.2⟩)

theorem Ok.not_stale {w : World} {k : Kind} (h : Ok w k) : (w.jobs k).handler ≠ .stale := by
  cases k
  · obtain ⟨t, h⟩ := h.1; rw [h]; simp
  · obtain ⟨t, h⟩ := h.1; rw [h]; simp
  · rcases h.1 with ⟨t, h⟩ | h <;> rw [h] <;> simp
  · rcases h with ⟨⟨t, h⟩, _⟩ | ⟨h, _⟩ | ⟨h, _⟩ <;> rw [h] <;> simp

/-- Nothing of interest for the queue has changed. -/
theorem Core.congr {w w' : World} {q : List Kind} (c : Core w q) (hj : w'.jobs = w.jobs) (hf : w'.first = w.first) (hl : w'.last = w.last)
    (hs : w'.selfClose = w.selfClose) (he : w.closedByError = true → w'.closedByError = true) (ht : w'.timer = true → w.timer = true) : Core w' q where
  first := by rw [hf]; exact c.first
  last := by rw [hl]; exact c.last
  linked := by rw [hj]; exact c.linked
  nodup := c.nodup
  busy := by rw [hj]; exact c.busy
  free := by rw [hj]; exact c.free
  ok := fun k hk => (c.ok k hk).congr (by rw [hj]) (by rw [hj]) hs he
  timer := fun h => by rw [hs]; exact c.timer (ht h)

/-- Taking the first job and marking it as not in use. -/
def popped (w : World) (k : Kind) (q : List Kind) : World := setJob { w with first := q.head? } k { w.jobs k with wbh := none }

theorem dequeue_nil {w : World} (c : Core w []) : dequeue w = none := by simp [dequeue, c.first]

theorem dequeue_cons {w : World} {k : Kind} {q : List Kind} (c : Core w (k :: q)) :
    dequeue w = some (k, { w with first := q.head? }) := by
  have h1 := c.first
  have h2 := c.last (by simp)
  simp only [List.head?_cons] at h1
  unfold dequeue
  rw [h1]
  simp only [h2]
  cases q with
  | nil => simp
  | cons b r =>
    have hne : ¬ some k = (k :: b :: r).getLast? := by
      intro h
      have : (b :: r).getLast? = some k := by simpa using h.symm
      exact (List.nodup_cons.mp c.nodup).1 (List.mem_of_getLast? this)
    rw [if_neg hne]
    simp [c.linked.1]

theorem Core.pop {w : World} {k : Kind} {q : List Kind} (c : Core w (k :: q)) : Core (popped w k q) q := by
  have hk : k ∉ q := (List.nodup_cons.mp c.nodup).1
  have hne : ∀ x ∈ q, x ≠ k := fun x hx h => hk (h ▸ hx)
  refine ⟨rfl, ?_, ?_, (List.nodup_cons.mp c.nodup).2, ?_, ?_, ?_, c.timer⟩
  · intro hq
    show w.last = _
    rw [c.last (by simp)]
    cases q with
    | nil => exact absurd rfl hq
    | cons b r => simp
  · refine c.linked.tail.congr ?_
    intro x hx
    simp only [popped, setJob_jobs]
    rw [if_neg (hne x hx)]
  · intro x hx
    simp only [popped, setJob_jobs]
    rw [if_neg (hne x hx)]
    exact c.busy x (List.mem_cons_of_mem _ hx)
  · intro x hx hc
    simp only [popped, setJob_jobs]
    by_cases h : x = k
    · rw [if_pos h]
    · rw [if_neg h]
      exact c.free x (by simp [h, hx]) hc
  · intro x hx
    have : (popped w k q).jobs x = w.jobs x := by simp only [popped, setJob_jobs]; rw [if_neg (hne x hx)]
    exact (c.ok x (List.mem_cons_of_mem _ hx)).congr (by rw [this]) (by rw [this]) rfl id

theorem qT_popped {w : World} {k : Kind} {q : List Kind} (q' : List Kind) : qT (popped w k q) q' = qT w q' := by
  refine qT_congr ?_
  intro x _
  simp only [popped, setJob_jobs]
  by_cases h : x = k
  · rw [if_pos h, h]
  · rw [if_neg h]

/-- A job that is not queued is filled in and made the only one. -/
theorem Core.single {w w' : World} {k : Kind} (c : Core w []) (hne : ∀ x, x ≠ k → w'.jobs x = w.jobs x) (hf : w'.first = some k) (hl : w'.last = some k)
    (hb : (w'.jobs k).wbh ≠ none) (ho : Ok w' k) (ht : w'.timer = true → w'.selfClose = true) : Core w' [k] where
  first := hf
  last := fun _ => hl
  linked := trivial
  nodup := by simp
  busy := by intro x hx; simp at hx; subst hx; exact hb
  free := by
    intro x hx hc
    simp at hx
    rw [hne x hx]
    exact c.free x (by simp) hc
  ok := by intro x hx; simp at hx; subst hx; exact ho
  timer := ht

/-- A job that is not queued is filled in and appended. -/
theorem Core.snoc {w w' : World} {q : List Kind} {k l : Kind} (c : Core w q) (hl : q.getLast? = some l) (hk : k ∉ q)
    (hw : ∀ x, x ≠ k → (w'.jobs x).wbh = (w.jobs x).wbh) (hh : ∀ x, x ≠ k → (w'.jobs x).handler = (w.jobs x).handler)
    (hs : ∀ x, x ≠ k → (w'.jobs x).streamHandler = (w.jobs x).streamHandler)
    (hn : ∀ x, x ≠ l → (w'.jobs x).next = (w.jobs x).next) (hnl : (w'.jobs l).next = some k)
    (hf : w'.first = w.first) (hla : w'.last = some k)
    (hb : (w'.jobs k).wbh ≠ none) (ho : Ok w' k) (ht : w'.timer = true → w'.selfClose = true)
    (hsc : w'.selfClose = w.selfClose ∨ .close ∉ q) (he : w.closedByError = true → w'.closedByError = true) : Core w' (q ++ [k]) where
  first := by
    rw [hf, c.first]
    cases q with
    | nil => cases hl
    | cons => rfl
  last := fun _ => by rw [hla]; simp
  linked := c.linked.append hl c.nodup hn hnl
  nodup := by
    rw [List.nodup_append]
    refine ⟨c.nodup, by simp, ?_⟩
    intro a ha b hb'
    simp at hb'
    subst hb'
    rintro rfl
    exact hk ha
  busy := by
    intro x hx
    rcases List.mem_append.mp hx with hx | hx
    · rw [hw x (fun h => hk (h ▸ hx))]; exact c.busy x hx
    · simp at hx; subst hx; exact hb
  free := by
    intro x hx hc
    rw [List.mem_append] at hx
    simp at hx
    rw [hw x hx.2]
    exact c.free x hx.1 hc
  ok := by
    intro x hx
    rcases List.mem_append.mp hx with hx | hx
    · have hxk : x ≠ k := fun h => hk (h ▸ hx)
      rcases hsc with hsc | hsc
      · exact (c.ok x hx).congr (hh x hxk) (hs x hxk) hsc he
      · have hxc : x ≠ .close := fun h => hsc (h ▸ hx)
        have := c.ok x hx
        cases x
        · simpa only [Ok, hh _ hxk, hs _ hxk] using this
        · simpa only [Ok, hh _ hxk, hs _ hxk] using this
        · simpa only [Ok, hh _ hxk, hs _ hxk] using this
        · exact absurd rfl hxc
    · simp at hx; subst hx; exact ho
  timer := ht

end Cio.WsQueue
