import Mathlib.Data.List.Perm.Basic
import Mathlib.Data.List.Sort
import Mathlib.Data.List.Pairwise
import Verif.Floor.FirstFit

/-!
# The regions do not overlap
-/

namespace Verif.Floor

variable {V : Type}

/-- A shape a closure can produce. -/
structure Shape.Ok (s : Shape) : Prop where
  nodup : s.columns.Nodup
  pos : s.columns ≠ [] → 0 < s.rows

/-- Specification: a placed region uses a cell. -/
def Uses (p : ℕ × Shape) (c : RegionColumn) (x : ℕ) : Prop :=
  c ∈ p.2.columns ∧ p.1 ≤ x ∧ x < p.1 + p.2.rows

/-- Two placed regions share no cell. -/
def Disjoint (p q : ℕ × Shape) : Prop := ∀ c x, Uses p c x → ¬ Uses q c x

/-- The allocations are those of the placed regions. -/
structure Placed (l : List (ℕ × Shape)) (m : CircuitAllocations) : Prop where
  wf : ∀ c, WF (m.get c)
  iff : ∀ c x, Occupied (m.get c) x ↔ ∃ p ∈ l, Uses p c x
  disjoint : l.Pairwise Disjoint

theorem Placed.nil : Placed [] [] :=
  ⟨fun _ => WF.nil, fun c x => by simp [Occupied, CircuitAllocations.get], List.Pairwise.nil⟩

/-- Placing one more region. -/
theorem Placed.step {l : List (ℕ × Shape)} {m : CircuitAllocations} (h : Placed l m) {s : Shape}
    (hs : s.Ok) : ∃ row m', firstFit m s.rows s.columns 0 none = some (some row, m') ∧
      Placed (l ++ [(row, s)]) m' ∧
      ∀ r, (∀ p ∈ l, Disjoint p (r, s)) → row ≤ r := by
  rcases firstFit_ok s.columns (fun c _ => h.wf c) hs.nodup hs.pos 0 none with
    ⟨row, m', e1, e2, -, -, e5, e6⟩ | ⟨e1, e2⟩
  · refine ⟨row, m', e1, ⟨fun c => ?_, fun c x => ?_, ?_⟩, fun r hr => e6 r (Nat.zero_le _) ?_⟩
    · rw [e2 c]
      split_ifs with hc
      · exact insertAlloc_wf (h.wf c) (hs.pos (List.ne_nil_of_mem hc)) (e5 c hc)
      · exact h.wf c
    · rw [e2 c]
      simp only [List.mem_append, List.mem_singleton, or_and_right, exists_or, exists_eq_left]
      rw [← h.iff c x]
      split_ifs with hc
      · rw [insertAlloc_occupied (h.wf c) (hs.pos (List.ne_nil_of_mem hc)) (e5 c hc)]
        simp only [Uses, hc, true_and]
        exact or_comm
      · simp [Uses, hc]
    · refine List.pairwise_append.2 ⟨h.disjoint, by simp, fun p hp q hq => ?_⟩
      rw [List.mem_singleton.1 hq]
      intro c x hpx hqx
      exact e5 c hqx.1 x hqx.2.1 hqx.2.2 ((h.iff c x).2 ⟨p, hp, hpx⟩)
    · intro c hc x hx hx' ho
      obtain ⟨p, hp, hpx⟩ := (h.iff c x).1 ho
      exact hr p hp c x hpx ⟨hc, hx, hx'⟩
  · -- the search is unbounded, so it finds a row below every allocation
    exfalso
    have hfin : ∀ cols : List RegionColumn, ∃ B, ∀ c ∈ cols, ∀ x, Occupied (m.get c) x → x < B := by
      intro cols
      induction cols with
      | nil => exact ⟨0, by simp⟩
      | cons c cols ih =>
        obtain ⟨B, hB⟩ := ih
        have : ∀ al : Allocations, ∃ B, ∀ x, Occupied al x → x < B := by
          intro al
          induction al with
          | nil => exact ⟨0, by simp [Occupied]⟩
          | cons a al ih =>
            obtain ⟨B, hB⟩ := ih
            refine ⟨max B (a.start + a.length), fun x hx => ?_⟩
            rcases Occupied.cons.1 hx with hx | hx
            · omega
            · have := hB x hx; omega
        obtain ⟨B', hB'⟩ := this (m.get c)
        refine ⟨max B B', fun c' hc' x hx => ?_⟩
        rcases List.mem_cons.1 hc' with rfl | hc'
        · have := hB' x hx; omega
        · have := hB c' hc' x hx; omega
    obtain ⟨B, hB⟩ := hfin s.columns
    refine e2 B (Nat.zero_le _) (by simp) fun c hc x hx _ ho => ?_
    have := hB c hc x ho
    omega

/-- Each region is at the earliest row that avoids the regions placed before it. -/
def Earliest (l : List (ℕ × Shape)) : Prop :=
  ∀ l₁ p l₂, l = l₁ ++ p :: l₂ → ∀ r, (∀ q ∈ l₁, Disjoint q (r, p.2)) → p.1 ≤ r

theorem slotIn_ok (shapes : List Shape) (hs : ∀ s ∈ shapes, s.Ok) :
    ∃ l m, slotIn shapes = some (l, m) ∧ Placed l m ∧ l.map Prod.snd = shapes ∧ Earliest l := by
  suffices h : ∀ (shapes : List Shape) (l₀ : List (ℕ × Shape)) (m₀ : CircuitAllocations),
      (∀ s ∈ shapes, s.Ok) → Placed l₀ m₀ → Earliest l₀ → ∃ l m,
        shapes.foldlM (fun (acc : List (ℕ × Shape) × CircuitAllocations) s => do
          let (row, m) ← firstFit acc.2 s.rows s.columns 0 none
          let row ← row
          some (acc.1 ++ [(row, s)], m)) (l₀, m₀) = some (l, m) ∧ Placed l m ∧
        l.map Prod.snd = l₀.map Prod.snd ++ shapes ∧ Earliest l by
    exact h shapes [] [] hs Placed.nil (by intro l₁ p l₂ h; simp at h)
  intro shapes
  induction shapes with
  | nil => intro l₀ m₀ _ h he; exact ⟨l₀, m₀, rfl, h, by simp, he⟩
  | cons s shapes ih =>
    intro l₀ m₀ hok h he
    obtain ⟨row, m', e1, e2, e3⟩ := h.step (hok s (List.mem_cons_self ..))
    have he' : Earliest (l₀ ++ [(row, s)]) := by
      intro l₁ p l₂ heq r hr
      rcases List.eq_nil_or_concat l₂ with rfl | ⟨l₂, q, rfl⟩
      · have := List.append_inj' heq rfl
        obtain ⟨rfl, h2⟩ := this
        simp only [List.cons.injEq, and_true] at h2
        subst h2
        exact e3 r hr
      · have heq' : l₀ ++ [(row, s)] = (l₁ ++ p :: l₂) ++ [q] := by simpa using heq
        obtain ⟨h1, -⟩ := List.append_inj' heq' rfl
        exact he l₁ p l₂ h1 r hr
    obtain ⟨l, m, f1, f2, f3, f4⟩ := ih (l₀ ++ [(row, s)]) m'
      (fun t ht => hok t (List.mem_cons_of_mem _ ht)) e2 he'
    refine ⟨l, m, ?_, f2, by simpa using f3, f4⟩
    rw [List.foldlM_cons]
    simp only [e1, Option.bind_eq_bind, Option.bind_some]
    exact f1

theorem Disjoint.symm {p q : ℕ × Shape} (h : Disjoint p q) : Disjoint q p :=
  fun c x hq hp => h c x hp hq

theorem Placed.perm {l l' : List (ℕ × Shape)} {m : CircuitAllocations} (h : Placed l m)
    (hp : l.Perm l') : Placed l' m :=
  ⟨h.wf, fun c x => by rw [h.iff]; simp only [hp.mem_iff],
    (hp.pairwise_iff (fun h => Disjoint.symm h)).1 h.disjoint⟩

/-- **C18**: planning succeeds, the start rows come in the order of the regions, and the regions
share no cell. -/
theorem slotInBiggestAdviceFirst_ok (shapes : List Shape) (hs : ∀ s ∈ shapes, s.Ok)
    (hidx : shapes.Pairwise fun a b => a.index < b.index) :
    ∃ starts m, slotInBiggestAdviceFirst shapes = some (starts, m) ∧
      starts.length = shapes.length ∧ Placed (starts.zip shapes) m := by
  set sorted := (shapes.mergeSort fun a b => adviceArea a ≤ adviceArea b).reverse with hsorted
  have hperm : sorted.Perm shapes :=
    (List.reverse_perm _).trans (List.mergeSort_perm _ _)
  obtain ⟨l, m, e1, e2, e3, -⟩ := slotIn_ok sorted fun s h => hs s (hperm.mem_iff.1 h)
  set l' := l.mergeSort fun a b => a.2.index ≤ b.2.index with hl'
  have hp' : l'.Perm l := List.mergeSort_perm _ _
  have hsrt : l'.Pairwise fun a b => a.2.index ≤ b.2.index := by
    have := List.pairwise_mergeSort (le := fun a b : ℕ × Shape => a.2.index ≤ b.2.index)
      (fun a b c h1 h2 => by simp only [decide_eq_true_eq] at *; omega)
      (fun a b => by simp only [Bool.or_eq_true, decide_eq_true_eq]; omega) l
    simpa using this
  have hsnd : l'.map Prod.snd = shapes := by
    have hpp : (l'.map Prod.snd).Perm shapes := (hp'.map Prod.snd).trans (e3 ▸ hperm)
    have h1 : ((l'.map Prod.snd)).Pairwise fun a b => a.index ≤ b.index := by
      rw [List.pairwise_map]; exact hsrt
    have hinj : ∀ a ∈ shapes, ∀ b ∈ shapes, a.index = b.index → a = b := by
      intro a ha b hb hab
      obtain ⟨i, hi, rfl⟩ := List.getElem_of_mem ha
      obtain ⟨j, hj, rfl⟩ := List.getElem_of_mem hb
      rcases lt_trichotomy i j with hij | rfl | hij
      · have := List.pairwise_iff_getElem.1 hidx i j hi hj hij; omega
      · rfl
      · have := List.pairwise_iff_getElem.1 hidx j i hj hi hij; omega
    refine hpp.eq_of_pairwise (le := fun a b => a.index ≤ b.index) ?_ h1
      (hidx.imp fun h => le_of_lt h)
    intro a b ha hb hab hba
    exact hinj a (hpp.mem_iff.1 ha) b hb (le_antisymm hab hba)
  refine ⟨l'.map Prod.fst, m, ?_, ?_, ?_⟩
  · unfold slotInBiggestAdviceFirst
    rw [← hsorted]
    dsimp only
    rw [e1]
    rfl
  · rw [← hsnd]; simp
  · have : (l'.map Prod.fst).zip shapes = l' := by
      conv_lhs => rw [← hsnd]
      rw [List.zip_map', List.map_id']
    rw [this]
    exact e2.perm hp'.symm

/-! ## Shapes -/

theorem call_ok {s : Shape} (h : s.Ok) (op : ROp V) : (s.call op).Ok := by
  unfold Shape.call
  cases op.target with
  | none => exact h
  | some p =>
    refine ⟨?_, fun _ => ?_⟩
    · exact List.Nodup.insert h.nodup
    · simp

theorem call_covers (s : Shape) (op : ROp V) (c : RegionColumn) (o : ℕ) :
    (c ∈ s.columns ∧ o < s.rows ∨ op.target = some (c, o)) →
      c ∈ (s.call op).columns ∧ o < (s.call op).rows := by
  unfold Shape.call
  rcases op.target with _ | ⟨c', o'⟩
  · rintro (h | h)
    · exact h
    · cases h
  · rintro (⟨h1, h2⟩ | h)
    · simp only [List.mem_insert_iff]
      exact ⟨Or.inr h1, by omega⟩
    · cases h
      simp

theorem foldl_call_ok {s : Shape} (h : s.Ok) (ops : List (ROp V)) :
    (ops.foldl Shape.call s).Ok := by
  induction ops generalizing s with
  | nil => exact h
  | cons op ops ih => exact ih (call_ok h op)

theorem foldl_call_index (s : Shape) (ops : List (ROp V)) :
    (ops.foldl Shape.call s).index = s.index := by
  induction ops generalizing s with
  | nil => rfl
  | cons op ops ih =>
    rw [List.foldl_cons, ih]
    unfold Shape.call
    cases op.target <;> rfl

theorem foldl_call_covers (s : Shape) (ops : List (ROp V)) (c : RegionColumn) (o : ℕ) :
    (c ∈ s.columns ∧ o < s.rows ∨ ∃ op ∈ ops, op.target = some (c, o)) →
      c ∈ (ops.foldl Shape.call s).columns ∧ o < (ops.foldl Shape.call s).rows := by
  induction ops generalizing s with
  | nil => rintro (h | ⟨op, h, -⟩); exacts [h, by simp at h]
  | cons op ops ih =>
    intro h
    refine ih _ ?_
    rcases h with h | ⟨op', h1, h2⟩
    · exact Or.inl (call_covers s op c o (Or.inl h))
    · rcases List.mem_cons.1 h1 with rfl | h1
      · exact Or.inl (call_covers s op' c o (Or.inr h2))
      · exact Or.inr ⟨op', h1, h2⟩

theorem shape_ok (i : ℕ) (ops : List (ROp V)) : (shape i ops).Ok :=
  foldl_call_ok ⟨List.nodup_nil, by simp⟩ ops

theorem shape_index (i : ℕ) (ops : List (ROp V)) : (shape i ops).index = i :=
  foldl_call_index _ ops

theorem shape_covers {i : ℕ} {ops : List (ROp V)} {op : ROp V} (h : op ∈ ops) {c : RegionColumn}
    {o : ℕ} (ht : op.target = some (c, o)) :
    c ∈ (shape i ops).columns ∧ o < (shape i ops).rows :=
  foldl_call_covers _ ops c o (Or.inr ⟨op, h, ht⟩)

theorem mem_foldl_call (s : Shape) (ops : List (ROp V)) (c : RegionColumn) :
    c ∈ (ops.foldl Shape.call s).columns ↔ c ∈ s.columns ∨ ∃ op ∈ ops, ∃ o, op.target = some (c, o) := by
  induction ops generalizing s with
  | nil => simp
  | cons op ops ih =>
    rw [List.foldl_cons, ih]
    have : c ∈ (s.call op).columns ↔ c ∈ s.columns ∨ ∃ o, op.target = some (c, o) := by
      unfold Shape.call
      rcases op.target with _ | ⟨c', o'⟩
      · simp
      · simp only [List.mem_insert_iff, Option.some.injEq, Prod.mk.injEq, exists_eq_right']
        rw [eq_comm, or_comm]
    rw [this]
    simp only [List.mem_cons, exists_eq_or_imp]
    tauto

/-- The columns of the shape are the columns assigned. -/
theorem mem_shape {i : ℕ} {ops : List (ROp V)} {c : RegionColumn} :
    c ∈ (shape i ops).columns ↔ ∃ op ∈ ops, ∃ o, op.target = some (c, o) := by
  rw [shape, mem_foldl_call]; simp

end Verif.Floor
