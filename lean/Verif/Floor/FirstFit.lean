import Mathlib.Tactic.Tauto
import Mathlib.Tactic.Push
import Mathlib.Order.Interval.Finset.Nat
import Verif.Floor.Model

/-!
# First fit finds the earliest free row
-/

namespace Verif.Floor

/-- Specification: the rows of a column in use. -/
def Occupied (l : Allocations) (x : ℕ) : Prop := ∃ a ∈ l, a.start ≤ x ∧ x < a.start + a.length

/-- The allocations of a column are disjoint, non-empty and in order. -/
structure WF (l : Allocations) : Prop where
  pos : ∀ a ∈ l, 0 < a.length
  sorted : l.Pairwise fun a b => a.start + a.length ≤ b.start

theorem WF.tail {a : Alloc} {l : Allocations} (h : WF (a :: l)) : WF l :=
  ⟨fun b hb => h.pos b (List.mem_cons_of_mem _ hb), (List.pairwise_cons.1 h.sorted).2⟩

theorem WF.nil : WF [] := ⟨by simp, List.Pairwise.nil⟩

theorem Occupied.cons {a : Alloc} {l : Allocations} {x : ℕ} :
    Occupied (a :: l) x ↔ (a.start ≤ x ∧ x < a.start + a.length) ∨ Occupied l x := by
  simp [Occupied]

theorem insertAlloc_mem {l : Allocations} (h : WF l) {a : Alloc} (ha : 0 < a.length)
    (hf : ∀ x, a.start ≤ x → x < a.start + a.length → ¬ Occupied l x) (b : Alloc) :
    b ∈ insertAlloc a l ↔ b = a ∨ b ∈ l := by
  induction l with
  | nil => simp [insertAlloc]
  | cons c l ih =>
    have hc := h.pos c (List.mem_cons_self ..)
    rw [insertAlloc]
    split_ifs with h1 h2
    · simp
    · exact absurd (Occupied.cons.2 (Or.inl (by omega))) (hf a.start le_rfl (by omega))
    · rw [List.mem_cons, ih h.tail (fun x hx hx' ho => hf x hx hx' (Occupied.cons.2 (Or.inr ho))),
        List.mem_cons]
      tauto

theorem insertAlloc_wf {l : Allocations} (h : WF l) {a : Alloc} (ha : 0 < a.length)
    (hf : ∀ x, a.start ≤ x → x < a.start + a.length → ¬ Occupied l x) : WF (insertAlloc a l) := by
  refine ⟨fun b hb => ?_, ?_⟩
  · rcases (insertAlloc_mem h ha hf b).1 hb with rfl | hb
    · exact ha
    · exact h.pos b hb
  · induction l with
    | nil => simp [insertAlloc]
    | cons c l ih =>
      have hc := h.pos c (List.mem_cons_self ..)
      have hp := List.pairwise_cons.1 h.sorted
      rw [insertAlloc]
      have hd : a.start + a.length ≤ c.start ∨ c.start + c.length ≤ a.start := by
        by_contra hcon
        push Not at hcon
        by_cases hle : a.start ≤ c.start
        · exact hf c.start hle (by omega) (Occupied.cons.2 (Or.inl (by omega)))
        · exact hf a.start le_rfl (by omega) (Occupied.cons.2 (Or.inl (by omega)))
      split_ifs with h1 h2
      · refine List.pairwise_cons.2 ⟨fun b hb => ?_, h.sorted⟩
        rcases List.mem_cons.1 hb with rfl | hb
        · omega
        · have := hp.1 b hb; omega
      · exact h.sorted
      · have hf' : ∀ x, a.start ≤ x → x < a.start + a.length → ¬ Occupied l x :=
          fun x hx hx' ho => hf x hx hx' (Occupied.cons.2 (Or.inr ho))
        refine List.pairwise_cons.2 ⟨fun b hb => ?_, ih h.tail hf'⟩
        rcases (insertAlloc_mem h.tail ha hf' b).1 hb with rfl | hb
        · omega
        · exact hp.1 b hb

theorem insertAlloc_occupied {l : Allocations} (h : WF l) {a : Alloc} (ha : 0 < a.length)
    (hf : ∀ x, a.start ≤ x → x < a.start + a.length → ¬ Occupied l x) (x : ℕ) :
    Occupied (insertAlloc a l) x ↔ (a.start ≤ x ∧ x < a.start + a.length) ∨ Occupied l x := by
  constructor
  · rintro ⟨b, hb, hx⟩
    rcases (insertAlloc_mem h ha hf b).1 hb with rfl | hb
    · exact Or.inl hx
    · exact Or.inr ⟨b, hb, hx⟩
  · rintro (hx | ⟨b, hb, hx⟩)
    · exact ⟨a, (insertAlloc_mem h ha hf a).2 (Or.inl rfl), hx⟩
    · exact ⟨b, (insertAlloc_mem h ha hf b).2 (Or.inr hb), hx⟩

/-- A row below the bound. -/
def Below (stop : Option ℕ) (x : ℕ) : Prop := ∀ e, stop = some e → x < e

theorem below_none (x : ℕ) : Below none x := by simp [Below]
theorem below_some {e x : ℕ} : Below (some e) x ↔ x < e := by simp [Below]

/-- The rows of an interval. -/
def Space.Has (s : Space) (x : ℕ) : Prop := s.start ≤ x ∧ Below s.stop x

theorem freeIntervals_nil (stop : Option ℕ) (row : ℕ) : freeIntervals stop row [] =
    if (match stop with | some e => decide (row < e) | none => true) then [⟨row, stop⟩] else [] := by
  rw [freeIntervals.eq_def]; rfl

theorem freeIntervals_cons (stop : Option ℕ) (row : ℕ) (r : Alloc) (l : Allocations) :
    freeIntervals stop row (r :: l) =
    if (match stop with | some e => decide (e ≤ r.start) | none => false) then
      freeIntervals stop row l
    else
      (if row < r.start then [⟨row, some r.start⟩] else []) ++
        freeIntervals stop (max row (r.start + r.length)) l := by
  rw [freeIntervals.eq_def]; rfl

theorem freeIntervals_start {l : Allocations} {stop : Option ℕ} {row : ℕ} {s : Space}
    (hs : s ∈ freeIntervals stop row l) : row ≤ s.start := by
  induction l generalizing row with
  | nil =>
    rw [freeIntervals_nil] at hs
    split_ifs at hs
    · simp at hs; rw [hs]
    · simp at hs
  | cons r l ih =>
    rw [freeIntervals_cons] at hs
    split_ifs at hs with h1 h2
    · exact ih hs
    · rcases List.mem_append.1 hs with hs | hs
      · simp at hs; rw [hs]
      · exact (le_max_left _ _).trans (ih hs)
    · have := ih (by simpa using hs)
      omega

/-- The free intervals contain the free rows of the window. -/
theorem freeIntervals_iff {l : Allocations} (h : WF l) (stop : Option ℕ) (row x : ℕ) :
    (∃ s ∈ freeIntervals stop row l, s.Has x) ↔ row ≤ x ∧ Below stop x ∧ ¬ Occupied l x := by
  induction l generalizing row with
  | nil =>
    have hno : ¬ Occupied [] x := by simp [Occupied]
    rw [freeIntervals_nil]
    rcases stop with _ | e
    · simp [Space.Has, hno]
    · simp only [decide_eq_true_eq]
      split_ifs with h1
      · simp [Space.Has, below_some, hno]
      · simp only [List.not_mem_nil, false_and, exists_false, false_iff, below_some]
        omega
  | cons r l ih =>
    have hr := h.pos r (List.mem_cons_self ..)
    have hp := List.pairwise_cons.1 h.sorted
    have hl : ∀ y, Occupied l y → r.start + r.length ≤ y := by
      rintro y ⟨a, ha, h1, -⟩
      exact (hp.1 a ha).trans h1
    rw [freeIntervals_cons, Occupied.cons]
    have main : (∃ s ∈ (if row < r.start then [⟨row, some r.start⟩] else []) ++
        freeIntervals stop (max row (r.start + r.length)) l, s.Has x) ↔
        (row ≤ x ∧ x < r.start) ∨ (max row (r.start + r.length) ≤ x ∧ Below stop x ∧ ¬ Occupied l x) := by
      rw [← ih h.tail]
      simp only [List.mem_append, or_and_right, exists_or]
      refine or_congr ?_ Iff.rfl
      split_ifs with h1
      · simp [Space.Has, below_some]
      · simp only [List.not_mem_nil, false_and, exists_false, false_iff]
        omega
    have hx : Occupied l x → r.start + r.length ≤ x := hl x
    rcases stop with _ | e
    · simp only [Bool.false_eq_true, if_false, main, below_none, true_and]
      by_cases ho : Occupied l x
      · have := hx ho
        simp only [ho, not_true_eq_false, and_false, or_false, or_true, iff_false]
        omega
      · simp only [ho, not_false_eq_true, and_true, or_false]
        omega
    · simp only [decide_eq_true_eq]
      by_cases h1 : e ≤ r.start
      · rw [if_pos h1, ih h.tail]
        simp only [below_some]
        by_cases ho : Occupied l x
        · simp [ho]
        · simp only [ho, not_false_eq_true, and_true, or_false]
          omega
      · rw [if_neg h1, main]
        simp only [below_some]
        by_cases ho : Occupied l x
        · have := hx ho
          simp only [ho, not_true_eq_false, and_false, or_false, or_true, iff_false]
          omega
        · simp only [ho, not_false_eq_true, and_true, or_false]
          omega

/-- The free intervals end within the window. -/
theorem freeIntervals_stop {l : Allocations} {stop : Option ℕ} {row : ℕ} {s : Space}
    (hs : s ∈ freeIntervals stop row l) (e : ℕ) (he : stop = some e) :
    ∃ e', s.stop = some e' ∧ e' ≤ e := by
  subst he
  induction l generalizing row with
  | nil =>
    rw [freeIntervals_nil] at hs
    split_ifs at hs
    · simp at hs; rw [hs]; exact ⟨e, rfl, le_rfl⟩
    · simp at hs
  | cons r l ih =>
    rw [freeIntervals_cons] at hs
    simp only [decide_eq_true_eq] at hs
    split_ifs at hs with h1 h2
    · exact ih hs
    · rcases List.mem_append.1 hs with hs | hs
      · simp at hs; rw [hs]; exact ⟨r.start, rfl, by omega⟩
      · exact ih hs
    · exact ih (by simpa using hs)

/-- Two free intervals are separated by a row in use. -/
theorem freeIntervals_sorted {l : Allocations} (h : WF l) (stop : Option ℕ) (row : ℕ) :
    (freeIntervals stop row l).Pairwise fun s t => ∃ e, s.stop = some e ∧ e < t.start := by
  induction l generalizing row with
  | nil =>
    rw [freeIntervals_nil]
    split_ifs <;> simp
  | cons r l ih =>
    have hr := h.pos r (List.mem_cons_self ..)
    rw [freeIntervals_cons]
    split_ifs with h1 h2
    · exact ih h.tail row
    · refine List.pairwise_append.2 ⟨by simp, ih h.tail _, fun s hs t ht => ?_⟩
      simp at hs
      rw [hs]
      have := freeIntervals_start ht
      exact ⟨r.start, rfl, by omega⟩
    · simpa using ih h.tail _

theorem freeIntervals_nonempty {l : Allocations} {stop : Option ℕ} {row : ℕ} {s : Space}
    (hs : s ∈ freeIntervals stop row l) : Below s.stop s.start := by
  induction l generalizing row with
  | nil =>
    rw [freeIntervals_nil] at hs
    rcases stop with _ | e
    · simp at hs; rw [hs]; exact below_none _
    · simp only [decide_eq_true_eq] at hs
      split_ifs at hs with h1
      · simp at hs; rw [hs]; exact below_some.2 h1
      · simp at hs
  | cons r l ih =>
    rw [freeIntervals_cons] at hs
    split_ifs at hs with h1 h2
    · exact ih hs
    · rcases List.mem_append.1 hs with hs | hs
      · simp at hs; rw [hs]; exact below_some.2 h2
      · exact ih hs
    · exact ih (by simpa using hs)

/-- A run of free rows in the window is inside one of the intervals. -/
theorem freeIntervals_run {l : Allocations} (h : WF l) {stop : Option ℕ} {row x length : ℕ}
    (hlen : 0 < length) (hx : row ≤ x) (hstop : ∀ e, stop = some e → x + length ≤ e)
    (hf : ∀ y, x ≤ y → y < x + length → ¬ Occupied l y) :
    ∃ s ∈ freeIntervals stop row l, s.start ≤ x ∧ ∀ e, s.stop = some e → x + length ≤ e := by
  have hin : ∀ y, x ≤ y → y < x + length → ∃ s ∈ freeIntervals stop row l, s.Has y := by
    intro y h1 h2
    rw [freeIntervals_iff h]
    exact ⟨by omega, fun e he => by have := hstop e he; omega, hf y h1 h2⟩
  obtain ⟨s, hs, hsx⟩ := hin x le_rfl (by omega)
  refine ⟨s, hs, hsx.1, fun e he => ?_⟩
  by_contra hcon
  push Not at hcon
  have hxe : x < e := hsx.2 e he
  obtain ⟨t, ht, hte⟩ := hin e (by omega) hcon
  have hst : s ≠ t := by
    rintro rfl
    exact absurd (hte.2 e he) (lt_irrefl _)
  have hp := freeIntervals_sorted h stop row
  have key : ∀ {s t : Space}, s ∈ freeIntervals stop row l → t ∈ freeIntervals stop row l →
      s ≠ t → (∃ e, s.stop = some e ∧ e < t.start) ∨ ∃ e, t.stop = some e ∧ e < s.start := by
    intro s t hs ht hst
    obtain ⟨i, hi, rfl⟩ := List.getElem_of_mem hs
    obtain ⟨j, hj, rfl⟩ := List.getElem_of_mem ht
    rcases lt_trichotomy i j with hij | rfl | hij
    · exact Or.inl (List.pairwise_iff_getElem.1 hp i j hi hj hij)
    · exact absurd rfl hst
    · exact Or.inr (List.pairwise_iff_getElem.1 hp j i hj hi hij)
  rcases key hs ht hst with ⟨e', he', hlt⟩ | ⟨e', he', hlt⟩
  · rw [he] at he'
    cases he'
    have := hte.1
    omega
  · have h1 := hte.2 e' he'
    have h2 := hsx.1
    omega

/-! ## The search -/

/-- Specification: a region of `length` rows in the columns `cols` can start at row `s`. -/
def Fits (m : CircuitAllocations) (length : ℕ) (cols : List RegionColumn) (s : ℕ) : Prop :=
  ∀ c ∈ cols, ∀ x, s ≤ x → x < s + length → ¬ Occupied (m.get c) x

theorem get_set (m : CircuitAllocations) (c : RegionColumn) (a : Allocations) (c' : RegionColumn) :
    (m.set c a).get c' = if c' = c then a else m.get c' := by
  unfold CircuitAllocations.get CircuitAllocations.set
  rw [List.lookup_cons]
  by_cases h : c' = c
  · simp [h]
  · simp only [beq_eq_false_iff_ne.2 h, h, if_false]
    congr 1
    induction m with
    | nil => rfl
    | cons e m ih =>
      rw [List.filter_cons]
      by_cases he : e.1 = c
      · simp only [he, ne_eq, not_true_eq_false, decide_false, Bool.false_eq_true, if_false]
        rw [ih]
        obtain ⟨e1, e2⟩ := e
        simp only at he
        rw [List.lookup_cons, he, beq_eq_false_iff_ne.2 h]
      · simp only [ne_eq, he, not_false_eq_true, decide_true, if_true]
        obtain ⟨e1, e2⟩ := e
        rw [List.lookup_cons, List.lookup_cons, ih]

/-- What a successful search does to the allocations. -/
def After (m m' : CircuitAllocations) (cols : List RegionColumn) (a : Alloc) : Prop :=
  ∀ c, m'.get c = if c ∈ cols then insertAlloc a (m.get c) else m.get c

/-- The specification of the search for a start row between `start` and `start + slack`: it does not
panic, and returns the least row where the region fits. -/
def SearchOk (m : CircuitAllocations) (length : ℕ) (cols : List RegionColumn) (start : ℕ)
    (slack : Option ℕ) (res : Option (Option ℕ × CircuitAllocations)) : Prop :=
  (∃ row m', res = some (some row, m') ∧ After m m' cols ⟨row, length⟩ ∧ start ≤ row ∧
    (∀ k, slack = some k → row ≤ start + k) ∧ Fits m length cols row ∧
    ∀ s, start ≤ s → Fits m length cols s → row ≤ s) ∨
  (res = some (none, m) ∧
    ∀ s, start ≤ s → (∀ k, slack = some k → s ≤ start + k) → ¬ Fits m length cols s)

theorem loop_ok {m : CircuitAllocations} {length : ℕ} {c : RegionColumn}
    {cols : List RegionColumn} (hc : c ∉ cols) {start : ℕ} {slack : Option ℕ}
    (ih : ∀ start slack, SearchOk m length cols start slack (firstFit m length cols start slack))
    (spaces : List Space) (hstart : ∀ s ∈ spaces, start ≤ s.start)
    (hstop : ∀ s ∈ spaces, ∀ k, slack = some k → ∃ e, s.stop = some e ∧ e ≤ start + length + k)
    (hsorted : spaces.Pairwise fun s t => ∃ e, s.stop = some e ∧ e < t.start) :
    (∃ row m', firstFitLoop m length c cols slack (slack.map fun k => start + length + k) spaces
        = some (some row, m') ∧ After m m' (c :: cols) ⟨row, length⟩ ∧
      (∃ s ∈ spaces, s.start ≤ row ∧ ∀ e, s.stop = some e → row + length ≤ e) ∧
      Fits m length cols row ∧
      ∀ s ∈ spaces, ∀ x, s.start ≤ x → (∀ e, s.stop = some e → x + length ≤ e) →
        Fits m length cols x → row ≤ x) ∨
    (firstFitLoop m length c cols slack (slack.map fun k => start + length + k) spaces
        = some (none, m) ∧
      ∀ s ∈ spaces, ∀ x, s.start ≤ x → (∀ e, s.stop = some e → x + length ≤ e) →
        ¬ Fits m length cols x) := by
  induction spaces with
  | nil => right; rw [firstFitLoop]; simp
  | cons sp spaces ihs =>
    have hp := List.pairwise_cons.1 hsorted
    have hsub := ihs (fun s hs => hstart s (List.mem_cons_of_mem _ hs))
      (fun s hs => hstop s (List.mem_cons_of_mem _ hs)) hp.2
    have h0 := hstart sp (List.mem_cons_self ..)
    have h1 := hstop sp (List.mem_cons_self ..)
    -- how a failure in the first interval continues
    have hskip : (∀ x, sp.start ≤ x → (∀ e, sp.stop = some e → x + length ≤ e) →
        ¬ Fits m length cols x) → ∀ res,
        firstFitLoop m length c cols slack (slack.map fun k => start + length + k) spaces = res →
        (∃ row m', res = some (some row, m') ∧ After m m' (c :: cols) ⟨row, length⟩ ∧
          (∃ s ∈ sp :: spaces, s.start ≤ row ∧ ∀ e, s.stop = some e → row + length ≤ e) ∧
          Fits m length cols row ∧
          ∀ s ∈ sp :: spaces, ∀ x, s.start ≤ x → (∀ e, s.stop = some e → x + length ≤ e) →
            Fits m length cols x → row ≤ x) ∨
        (res = some (none, m) ∧
          ∀ s ∈ sp :: spaces, ∀ x, s.start ≤ x → (∀ e, s.stop = some e → x + length ≤ e) →
            ¬ Fits m length cols x) := by
      intro hno res hres
      rcases hsub with ⟨row, m', e1, e2, ⟨s, hs, e3⟩, e4, e5⟩ | ⟨e1, e2⟩
      · left
        refine ⟨row, m', hres ▸ e1, e2, ⟨s, List.mem_cons_of_mem _ hs, e3⟩, e4, ?_⟩
        intro s hs x hx hx' hfit
        rcases List.mem_cons.1 hs with rfl | hs
        · exact absurd hfit (hno x hx hx')
        · exact e5 s hs x hx hx' hfit
      · right
        refine ⟨hres ▸ e1, ?_⟩
        intro s hs x hx hx'
        rcases List.mem_cons.1 hs with rfl | hs
        · exact hno x hx hx'
        · exact e2 s hs x hx hx'
    rw [firstFitLoop]
    have hassert : slackExceeded slack (sp.stop.map fun (e : ℕ) => (e : ℤ) - sp.start - length)
        = false := by
      rcases slack with _ | k
      · rfl
      · obtain ⟨e, he, hle⟩ := h1 k rfl
        rw [he]
        simp only [slackExceeded, Option.map_some, decide_eq_false_iff_not]
        omega
    simp only [hassert, Bool.false_eq_true, if_false]
    split_ifs with hroom
    · -- the search in the other columns
      have hsl : ∀ k, (sp.stop.map fun (e : ℕ) => (e : ℤ) - sp.start - length).map Int.toNat = some k ↔
          ∃ e, sp.stop = some e ∧ sp.start + k + length = e := by
        intro k
        rcases hst : sp.stop with _ | e
        · simp
        · rw [hst] at hroom
          simp only [Option.map_some, Option.getD_some] at hroom
          simp only [Option.map_some, Option.some.injEq, exists_eq_left']
          omega
      rcases ih sp.start ((sp.stop.map fun (e : ℕ) => (e : ℤ) - sp.start - length).map Int.toNat) with
        ⟨row, m', e1, e2, e3, e4, e5, e6⟩ | ⟨e1, e2⟩
      · rw [e1]
        dsimp only
        have hrow : ∀ e, sp.stop = some e → row + length ≤ e := by
          intro e he
          have hk := e4 ((e : ℤ) - sp.start - length).toNat (by rw [he]; rfl)
          rw [he] at hroom
          simp only [Option.map_some, Option.getD_some] at hroom
          omega
        have hassert2 : endExceeded (slack.map fun k => start + length + k) (row + length)
            = false := by
          rcases slack with _ | k
          · rfl
          · obtain ⟨e, he, hle⟩ := h1 k rfl
            have := hrow e he
            simp only [endExceeded, Option.map_some, decide_eq_false_iff_not]
            omega
        simp only [hassert2, Bool.false_eq_true, if_false]
        left
        refine ⟨row, _, rfl, ?_, ⟨sp, List.mem_cons_self .., e3, hrow⟩, e5, ?_⟩
        · intro c'
          rw [get_set, e2 c, if_neg hc, e2 c']
          by_cases hcc : c' = c
          · subst hcc; simp
          · simp [hcc]
        · intro s hs x hx hx' hfit
          rcases List.mem_cons.1 hs with rfl | hs
          · exact e6 x hx hfit
          · obtain ⟨e, he, hlt⟩ := hp.1 s hs
            have := hrow e he
            omega
      · rw [e1]
        dsimp only
        refine hskip ?_ _ rfl
        intro x hx hx'
        refine e2 x hx fun k hk => ?_
        obtain ⟨e, he, hek⟩ := (hsl k).1 hk
        have := hx' e he
        omega
    · refine hskip ?_ _ rfl
      intro x hx hx' _
      apply hroom
      rcases hst : sp.stop with _ | e
      · simp
      · have := hx' e hst
        simp only [Option.map_some, Option.getD_some]
        omega

/-- **C18**: first fit does not panic and returns the least row where the region fits. -/
theorem firstFit_ok {m : CircuitAllocations} {length : ℕ} (cols : List RegionColumn)
    (hwf : ∀ c ∈ cols, WF (m.get c)) (hnd : cols.Nodup) (hlen : cols ≠ [] → 0 < length)
    (start : ℕ) (slack : Option ℕ) :
    SearchOk m length cols start slack (firstFit m length cols start slack) := by
  induction cols generalizing start slack with
  | nil =>
    left
    rw [firstFit]
    exact ⟨start, m, rfl, fun c => by simp, le_rfl, fun k _ => by omega, by simp [Fits],
      fun s hs _ => hs⟩
  | cons c cols ih =>
    have hl := hlen (by simp)
    have hnd' := List.nodup_cons.1 hnd
    have hw := hwf c (List.mem_cons_self ..)
    have ih' := ih (fun c hc => hwf c (List.mem_cons_of_mem _ hc)) hnd'.2 (fun _ => hl)
    have hfits : ∀ x, Fits m length (c :: cols) x ↔
        (∀ y, x ≤ y → y < x + length → ¬ Occupied (m.get c) y) ∧ Fits m length cols x := by
      intro x; simp [Fits]
    rw [firstFit]
    have hrun : ∀ x, start ≤ x → (∀ k, slack = some k → x ≤ start + k) →
        (∀ y, x ≤ y → y < x + length → ¬ Occupied (m.get c) y) →
        ∃ s ∈ freeIntervals (slack.map fun k => start + length + k) start (m.get c), s.start ≤ x ∧
          ∀ e, s.stop = some e → x + length ≤ e := by
      intro x hx hk hf
      refine freeIntervals_run hw hl hx (fun e he => ?_) hf
      rcases slack with _ | k
      · simp at he
      · simp only [Option.map_some, Option.some.injEq] at he
        have := hk k rfl
        omega
    rcases loop_ok hnd'.1 ih' (start := start) (slack := slack)
      (freeIntervals (slack.map fun k => start + length + k) start (m.get c))
      (fun s hs => freeIntervals_start hs)
      (fun s hs k hk => freeIntervals_stop hs _ (by rw [hk]; rfl))
      (freeIntervals_sorted hw _ _) with ⟨row, m', e1, e2, ⟨s, hs, e3, e3'⟩, e4, e5⟩ | ⟨e1, e2⟩
    · left
      have hrow0 := (freeIntervals_start hs).trans e3
      have hbound : ∀ k, slack = some k → row ≤ start + k := by
        intro k hk
        obtain ⟨e, he, hle⟩ := freeIntervals_stop hs (start + length + k) (by rw [hk]; rfl)
        have := e3' e he
        omega
      refine ⟨row, m', e1, e2, hrow0, hbound, ?_, ?_⟩
      · rw [hfits]
        refine ⟨fun y hy hy' => ?_, e4⟩
        have := (freeIntervals_iff hw (slack.map fun k => start + length + k) start y).1
          ⟨s, hs, by omega, fun e he => by have := e3' e he; omega⟩
        exact this.2.2
      · intro x hx hfit
        obtain ⟨hf1, hf2⟩ := (hfits x).1 hfit
        by_cases hk : ∀ k, slack = some k → x ≤ start + k
        · obtain ⟨t, ht, h1, h2⟩ := hrun x hx hk hf1
          exact e5 t ht x h1 h2 hf2
        · push Not at hk
          obtain ⟨k, hk, hlt⟩ := hk
          have := hbound k hk
          omega
    · right
      refine ⟨e1, fun x hx hk hfit => ?_⟩
      obtain ⟨hf1, hf2⟩ := (hfits x).1 hfit
      obtain ⟨t, ht, h1, h2⟩ := hrun x hx hk hf1
      exact e2 t ht x h1 h2 hf2

end Verif.Floor
