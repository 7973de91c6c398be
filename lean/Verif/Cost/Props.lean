import Verif.Cost.Written

/-!
# The predicted proof size and the bytes written (C33)
-/

namespace Verif.Cost

open Verif.Cs (Cs Column Lookup)
open Verif.Domain (Domain Consts)
open Verif.Plonk (Pk Circuit Leaves Permuted Product mapS)
open Verif.Msm Verif.Transcript Verif.Protocol
open Verif.Multiopen (Query setsOf)
open Verif.Multicore (chunks)

/-! ## Specification -/

/-- The queries of the columns. -/
def columnRots {F : Type*} (cs : Cs F) : List (Column × ℤ) :=
  cs.adviceQueries.map (fun q => (⟨.advice, q.1⟩, q.2))
  ++ cs.instanceQueries.map (fun q => (⟨.inst, q.1⟩, q.2))
  ++ cs.fixedQueries.map (fun q => (⟨.fixed, q.1⟩, q.2))

/-- The rotations at which something is opened: those of the queries and the fixed ones of the
lookup and permutation arguments. -/
def allRots {F : Type*} (cs : Cs F) : List ℤ :=
  (columnRots cs).map Prod.snd ++ [0, 1, -1, -((cs.blindingFactors : ℤ) + 1)]

/-- The number of sets of rotations that are counted but not used: `{0, 1}` is that of a product
column, or of a column queried exactly there; `{-1, 0}` that of a permuted lookup input, or of a
column queried exactly there. -/
def unused {F : Type*} (cs : Cs F) : ℕ :=
  (if cs.lookups.length = 0 ∧ cs.permutation.length = 0 ∧
      ({0, 1} : Finset ℤ) ∉ groups (columnRots cs) then 1 else 0)
  + (if cs.lookups.length = 0 ∧ ({-1, 0} : Finset ℤ) ∉ groups (columnRots cs) then 1 else 0)

/-! ## The sets that are used -/

section Rots
variable {F : Type}

/-- The queries of the prover, with rotations instead of points. -/
def circuitRots (cs : Cs F) (ch : ℕ) (i : ℕ) : List (Ptr × ℤ) :=
  cs.instanceQueries.map (fun q => (.inst i q.1, q.2))
  ++ cs.adviceQueries.map (fun q => (.advice i q.1, q.2))
  ++ (((List.range ch).flatMap fun s => [(.perm i s, 0), (.perm i s, 1)])
    ++ ((List.range ch).reverse.drop 1).map fun s => (.perm i s, -((cs.blindingFactors : ℤ) + 1)))
  ++ (List.range cs.lookups.length).flatMap fun l =>
    [(.lookupZ i l, 0), (.lookupA i l, 0), (.lookupS i l, 0), (.lookupA i l, -1), (.lookupZ i l, 1)]

def openRots (cs : Cs F) (ch m perms : ℕ) : List (Ptr × ℤ) :=
  (List.range m).flatMap (circuitRots cs ch)
  ++ cs.fixedQueries.map (fun q => (.fixed q.1, q.2))
  ++ (List.range perms).map (fun j => (.permCommon j, 0))
  ++ [(.h, 0), (.random, 0)]

theorem zipIdx_flatMap {α β : Type*} (l : List α) (f : α → ℕ → List β) (g : ℕ → List β)
    (h : ∀ a ∈ l, ∀ i, f a i = g i) :
    l.zipIdx.flatMap (fun q => f q.1 q.2) = (List.range l.length).flatMap g := by
  have h1 : l.zipIdx.flatMap (fun q => f q.1 q.2) = l.zipIdx.flatMap (fun q => g q.2) := by
    apply List.flatMap_congr
    intro q hq
    exact h _ (List.fst_mem_of_mem_zipIdx hq) _
  rw [h1, ← List.flatMap_map Prod.snd g]
  congr 1
  rw [List.zipIdx_map_snd, List.range_eq_range']

theorem proverQueries_rots [Field F] {d : Domain F} (hd : d.Valid) (cs : Cs F) (x : F) {P : Type}
    (os : List (Opens P)) (ch perms : ℕ) (hp : ∀ o ∈ os, o.permutation.length = ch)
    (hl : ∀ o ∈ os, o.lookups.length = cs.lookups.length) :
    proverQueries d cs x os perms = (openRots cs ch os.length perms).map fun q =>
      (⟨d.rotateOmega x q.2, q.1, ()⟩ : Query F Ptr Unit) := by
  have h0 : d.rotateOmega x 0 = x := by rw [Verif.Domain.rotateOmega_eq hd]; simp
  unfold proverQueries openRots
  simp only [List.map_append, List.map_map, List.map_cons, List.map_nil, Function.comp_def, h0]
  congr 3
  rw [List.map_flatMap]
  apply zipIdx_flatMap
  intro o ho i
  unfold openCircuit openPermutation openLookup circuitRots
  rw [hp o ho, hl o ho]
  simp only [List.map_append, List.map_map, List.map_flatMap, Function.comp_def, List.map_cons,
    List.map_nil, h0]

theorem mem_reverse_drop (ch s : ℕ) : s ∈ (List.range ch).reverse.drop 1 ↔ s + 1 < ch := by
  cases ch with
  | zero => simp
  | succ c => rw [List.range_succ, List.reverse_append]; simp

/-- Which rotations of which polynomial are opened. -/
def Opened (cs : Cs F) (ch m perms : ℕ) (p : Ptr) (r : ℤ) : Prop :=
  match p with
  | .inst i c => i < m ∧ (c, r) ∈ cs.instanceQueries
  | .advice i c => i < m ∧ (c, r) ∈ cs.adviceQueries
  | .perm i s => i < m ∧ s < ch ∧ (r = 0 ∨ r = 1 ∨ (s + 1 < ch ∧ r = -((cs.blindingFactors : ℤ) + 1)))
  | .lookupZ i l => i < m ∧ l < cs.lookups.length ∧ (r = 0 ∨ r = 1)
  | .lookupA i l => i < m ∧ l < cs.lookups.length ∧ (r = 0 ∨ r = -1)
  | .lookupS i l => i < m ∧ l < cs.lookups.length ∧ r = 0
  | .fixed c => (c, r) ∈ cs.fixedQueries
  | .permCommon j => j < perms ∧ r = 0
  | .h => r = 0
  | .random => r = 0

theorem mem_openRots (cs : Cs F) (ch m perms : ℕ) (p : Ptr) (r : ℤ) :
    (p, r) ∈ openRots cs ch m perms ↔ Opened cs ch m perms p r := by
  unfold openRots circuitRots Opened
  simp only [List.mem_append, List.mem_flatMap, List.mem_map, List.mem_range, mem_reverse_drop,
    List.mem_cons, List.not_mem_nil, or_false, Prod.mk.injEq]
  cases p <;> simp
  case perm i s =>
    constructor
    · rintro ⟨_, h1, (⟨_, h2, (⟨⟨rfl, rfl⟩, h3⟩ | ⟨⟨rfl, rfl⟩, h3⟩)⟩ | ⟨h2, rfl, h3⟩)⟩
      · exact ⟨h1, h2, Or.inl h3⟩
      · exact ⟨h1, h2, Or.inr (Or.inl h3)⟩
      · exact ⟨h1, by omega, by right; right; exact ⟨h2, by omega⟩⟩
    · rintro ⟨h1, h2, (h3 | h3 | ⟨h3, h4⟩)⟩
      · exact ⟨i, h1, Or.inl ⟨s, h2, Or.inl ⟨⟨rfl, rfl⟩, h3⟩⟩⟩
      · exact ⟨i, h1, Or.inl ⟨s, h2, Or.inr ⟨⟨rfl, rfl⟩, h3⟩⟩⟩
      · exact ⟨i, h1, Or.inr ⟨h3, rfl, by omega⟩⟩
  case lookupZ i l =>
    constructor
    · rintro ⟨_, h1, _, h2, (⟨⟨rfl, rfl⟩, h3⟩ | ⟨⟨rfl, rfl⟩, h3⟩)⟩
      · exact ⟨h1, h2, Or.inl h3⟩
      · exact ⟨h1, h2, Or.inr h3⟩
    · rintro ⟨h1, h2, (h3 | h3)⟩
      · exact ⟨i, h1, l, h2, Or.inl ⟨⟨rfl, rfl⟩, h3⟩⟩
      · exact ⟨i, h1, l, h2, Or.inr ⟨⟨rfl, rfl⟩, h3⟩⟩
  case lookupA i l =>
    constructor
    · rintro ⟨_, h1, _, h2, (⟨⟨rfl, rfl⟩, h3⟩ | ⟨⟨rfl, rfl⟩, h3⟩)⟩
      · exact ⟨h1, h2, Or.inl h3⟩
      · exact ⟨h1, h2, Or.inr h3⟩
    · rintro ⟨h1, h2, (h3 | h3)⟩
      · exact ⟨i, h1, l, h2, Or.inl ⟨⟨rfl, rfl⟩, h3⟩⟩
      · exact ⟨i, h1, l, h2, Or.inr ⟨⟨rfl, rfl⟩, h3⟩⟩
  all_goals tauto

theorem mem_columnRots (cs : Cs F) (c : Column) (r : ℤ) :
    (c, r) ∈ columnRots cs ↔ match c.kind with
      | .advice => (c.index, r) ∈ cs.adviceQueries
      | .fixed => (c.index, r) ∈ cs.fixedQueries
      | .inst => (c.index, r) ∈ cs.instanceQueries := by
  unfold columnRots
  simp only [List.mem_append, List.mem_map, Prod.mk.injEq]
  obtain ⟨k, i⟩ := c
  cases k <;> simp

/-- The sets of rotations in the opening argument. -/
theorem mem_openGroups (cs : Cs F) (ch m perms : ℕ) (hm : 0 < m) (S : Finset ℤ) :
    S ∈ groups (openRots cs ch m perms) ↔ S ∈ groups (columnRots cs) ∨ S = {0} ∨
      (0 < cs.lookups.length ∧ (S = {0, 1} ∨ S = {-1, 0})) ∨ (0 < ch ∧ S = {0, 1}) ∨
      (1 < ch ∧ S = {-((cs.blindingFactors : ℤ) + 1), 0, 1}) := by
  have hinst : ∀ i c, i < m → rots (openRots cs ch m perms) (.inst i c)
      = rots (columnRots cs) ⟨.inst, c⟩ := by
    intro i c hi; ext r; rw [mem_rots, mem_rots, mem_openRots, mem_columnRots]; simp [Opened, hi]
  have hadv : ∀ i c, i < m → rots (openRots cs ch m perms) (.advice i c)
      = rots (columnRots cs) ⟨.advice, c⟩ := by
    intro i c hi; ext r; rw [mem_rots, mem_rots, mem_openRots, mem_columnRots]; simp [Opened, hi]
  have hfix : ∀ c, rots (openRots cs ch m perms) (.fixed c) = rots (columnRots cs) ⟨.fixed, c⟩ := by
    intro c; ext r; rw [mem_rots, mem_rots, mem_openRots, mem_columnRots]; simp [Opened]
  have hperm : ∀ i s, i < m → s < ch → rots (openRots cs ch m perms) (.perm i s)
      = if s + 1 < ch then {-((cs.blindingFactors : ℤ) + 1), 0, 1} else {0, 1} := by
    intro i s hi hs; ext r
    rw [mem_rots, mem_openRots]
    split_ifs with h
    · simp only [Opened, hi, hs, h, true_and, Finset.mem_insert, Finset.mem_singleton]; tauto
    · simp only [Opened, hi, hs, h, true_and, false_and, or_false, Finset.mem_insert,
        Finset.mem_singleton]
  have hZ : ∀ i l, i < m → l < cs.lookups.length →
      rots (openRots cs ch m perms) (.lookupZ i l) = {0, 1} := by
    intro i l hi hl; ext r; rw [mem_rots, mem_openRots]
    simp only [Opened, hi, hl, true_and, Finset.mem_insert, Finset.mem_singleton]
  have hA : ∀ i l, i < m → l < cs.lookups.length →
      rots (openRots cs ch m perms) (.lookupA i l) = {-1, 0} := by
    intro i l hi hl; ext r; rw [mem_rots, mem_openRots]
    simp only [Opened, hi, hl, true_and, Finset.mem_insert, Finset.mem_singleton]; tauto
  have hS : ∀ i l, i < m → l < cs.lookups.length →
      rots (openRots cs ch m perms) (.lookupS i l) = {0} := by
    intro i l hi hl; ext r; rw [mem_rots, mem_openRots]
    simp only [Opened, hi, hl, true_and, Finset.mem_singleton]
  have hC : ∀ j, j < perms → rots (openRots cs ch m perms) (.permCommon j) = {0} := by
    intro j hj; ext r; rw [mem_rots, mem_openRots]
    simp only [Opened, hj, true_and, Finset.mem_singleton]
  have hh : rots (openRots cs ch m perms) .h = {0} := by
    ext r; rw [mem_rots, mem_openRots]; simp only [Opened, Finset.mem_singleton]
  have hr : rots (openRots cs ch m perms) .random = {0} := by
    ext r; rw [mem_rots, mem_openRots]; simp only [Opened, Finset.mem_singleton]
  rw [mem_groups, mem_groups]
  constructor
  · rintro ⟨p, r, hp, rfl⟩
    rw [mem_openRots] at hp
    cases p with
    | inst i c => exact Or.inl ⟨⟨.inst, c⟩, r, (mem_columnRots _ _ _).2 hp.2, hinst i c hp.1⟩
    | advice i c => exact Or.inl ⟨⟨.advice, c⟩, r, (mem_columnRots _ _ _).2 hp.2, hadv i c hp.1⟩
    | perm i s =>
      rw [hperm i s hp.1 hp.2.1]
      have := hp.2.1
      split_ifs with h
      · exact Or.inr (Or.inr (Or.inr (Or.inr ⟨by omega, rfl⟩)))
      · exact Or.inr (Or.inr (Or.inr (Or.inl ⟨by omega, rfl⟩)))
    | lookupZ i l =>
      have := hp.2.1
      exact Or.inr (Or.inr (Or.inl ⟨by omega, Or.inl (hZ i l hp.1 hp.2.1)⟩))
    | lookupA i l =>
      have := hp.2.1
      exact Or.inr (Or.inr (Or.inl ⟨by omega, Or.inr (hA i l hp.1 hp.2.1)⟩))
    | lookupS i l => exact Or.inr (Or.inl (hS i l hp.1 hp.2.1))
    | fixed c => exact Or.inl ⟨⟨.fixed, c⟩, r, (mem_columnRots _ _ _).2 hp, hfix c⟩
    | permCommon j => exact Or.inr (Or.inl (hC j hp.1))
    | h => exact Or.inr (Or.inl hh)
    | random => exact Or.inr (Or.inl hr)
  · rintro (⟨⟨k, c⟩, r, hq, rfl⟩ | rfl | ⟨hl, (rfl | rfl)⟩ | ⟨hc, rfl⟩ | ⟨hc, rfl⟩)
    · rw [mem_columnRots] at hq
      cases k with
      | advice => exact ⟨.advice 0 c, r, (mem_openRots _ _ _ _ _ _).2 ⟨hm, hq⟩, (hadv 0 c hm).symm⟩
      | fixed => exact ⟨.fixed c, r, (mem_openRots _ _ _ _ _ _).2 hq, (hfix c).symm⟩
      | inst => exact ⟨.inst 0 c, r, (mem_openRots _ _ _ _ _ _).2 ⟨hm, hq⟩, (hinst 0 c hm).symm⟩
    · exact ⟨.h, 0, (mem_openRots _ _ _ _ _ _).2 rfl, hh.symm⟩
    · exact ⟨.lookupZ 0 0, 0, (mem_openRots _ _ _ _ _ _).2 ⟨hm, hl, Or.inl rfl⟩, (hZ 0 0 hm hl).symm⟩
    · exact ⟨.lookupA 0 0, 0, (mem_openRots _ _ _ _ _ _).2 ⟨hm, hl, Or.inl rfl⟩, (hA 0 0 hm hl).symm⟩
    · refine ⟨.perm 0 (ch - 1), 0, (mem_openRots _ _ _ _ _ _).2 ⟨hm, by omega, Or.inl rfl⟩, ?_⟩
      rw [hperm 0 (ch - 1) hm (by omega), if_neg (by omega)]
    · refine ⟨.perm 0 0, 0, (mem_openRots _ _ _ _ _ _).2 ⟨hm, by omega, Or.inl rfl⟩, ?_⟩
      rw [hperm 0 0 hm (by omega), if_pos (by omega)]

/-- The columns of the permutation are queried at the current row, as `enable_equality` does. -/
def PermQueried (cs : Cs F) : Prop := ∀ c ∈ cs.permutation, (c, 0) ∈ columnRots cs

theorem costGroups (cs : Cs F) (h : PermQueried cs) :
    groups (costQueries cs) = groups (columnRots cs) := by
  have hm : ∀ c r, (c, r) ∈ costQueries cs ↔ (c, r) ∈ columnRots cs := by
    intro c r
    have : costQueries cs = columnRots cs ++ cs.permutation.map fun c => (c, 0) := rfl
    rw [this, List.mem_append, List.mem_map]
    constructor
    · rintro (h' | ⟨c', hc', e⟩)
      · exact h'
      · cases e; exact h _ hc'
    · exact Or.inl
  have hr : ∀ c, rots (costQueries cs) c = rots (columnRots cs) c := by
    intro c; ext r; rw [mem_rots, mem_rots, hm]
  ext S
  rw [mem_groups, mem_groups]
  simp only [hm, hr]

theorem bool1 (p q : Prop) : (p ∨ ¬q) ↔ ¬(q ∧ ¬p) := by tauto

theorem bool2 (p q r : Prop) : (p ∨ ¬q ∨ ¬r) ↔ ¬(q ∧ r ∧ ¬p) := by tauto

/-- Counted sets are the used ones and those of `unused`. -/
theorem pointSets_unused (cs : Cs F) (hq : PermQueried cs) (ch m perms : ℕ) (hm : 0 < m)
    (h0 : 0 < ch ↔ 0 < cs.permutation.length) (h1 : 1 < ch ↔ cs.degree - 2 < cs.permutation.length) :
    (pointSets cs).length = (groups (openRots cs ch m perms)).card + unused cs := by
  rw [pointSets_length, costGroups cs hq]
  have hbf : (0 : ℤ) ≤ (cs.blindingFactors : ℤ) := Int.natCast_nonneg _
  have hU : ∀ S, S ∈ groups (openRots cs ch m perms) ↔ _ := mem_openGroups cs ch m perms hm
  generalize groups (openRots cs ch m perms) = U at hU ⊢
  have n1 : ({0, 1} : Finset ℤ) ≠ {0} := by decide
  have n2 : ({0, 1} : Finset ℤ) ≠ {-1, 0} := by decide
  have n3 : ({0, 1} : Finset ℤ) ≠ {-((cs.blindingFactors : ℤ) + 1), 0, 1} := by
    intro h
    have : -((cs.blindingFactors : ℤ) + 1) ∈ ({0, 1} : Finset ℤ) := by rw [h]; simp
    simp only [Finset.mem_insert, Finset.mem_singleton] at this
    omega
  have n4 : ({-1, 0} : Finset ℤ) ≠ {0} := by decide
  have n5 : ({-1, 0} : Finset ℤ) ≠ {-((cs.blindingFactors : ℤ) + 1), 0, 1} := by
    intro h
    have : (1 : ℤ) ∈ ({-1, 0} : Finset ℤ) := by rw [h]; simp
    simp at this
  have hP : groups (columnRots cs) ∪ ((extraSets cs).map List.toFinset).toFinset
      = insert {0, 1} (insert {-1, 0} U) := by
    ext S
    rw [Finset.mem_union, Finset.mem_insert, Finset.mem_insert, hU, List.mem_toFinset, List.mem_map]
    unfold extraSets
    constructor
    · rintro (h | ⟨l, hl, rfl⟩)
      · tauto
      · rw [List.mem_append] at hl
        rcases hl with hl | hl
        · fin_cases hl <;> simp
        · split_ifs at hl with hgt
          · rw [List.mem_singleton] at hl
            subst hl
            right; right; right; right; right; right
            exact ⟨h1.2 hgt, by simp⟩
          · cases hl
    · rintro (rfl | rfl | h | rfl | ⟨-, (rfl | rfl)⟩ | ⟨-, rfl⟩ | ⟨h, rfl⟩)
      · exact Or.inr ⟨[0, 1], by simp, by simp⟩
      · exact Or.inr ⟨[-1, 0], by simp, by simp⟩
      · exact Or.inl h
      · exact Or.inr ⟨[0], by simp, by simp⟩
      · exact Or.inr ⟨[0, 1], by simp, by simp⟩
      · exact Or.inr ⟨[-1, 0], by simp, by simp⟩
      · exact Or.inr ⟨[0, 1], by simp, by simp⟩
      · refine Or.inr ⟨[-((cs.blindingFactors : ℤ) + 1), 0, 1], ?_, by simp⟩
        rw [List.mem_append, if_pos (h1.1 h)]; simp
  have m1 : ({-1, 0} : Finset ℤ) ∈ U ↔
      ¬ (cs.lookups.length = 0 ∧ ({-1, 0} : Finset ℤ) ∉ groups (columnRots cs)) := by
    rw [hU]
    simp only [n4, n5, n2.symm, false_or, and_false, or_false, and_true, Nat.pos_iff_ne_zero, ne_eq]
    exact bool1 _ _
  have m2 : ({0, 1} : Finset ℤ) ∈ insert ({-1, 0} : Finset ℤ) U ↔
      ¬ (cs.lookups.length = 0 ∧ cs.permutation.length = 0 ∧
        ({0, 1} : Finset ℤ) ∉ groups (columnRots cs)) := by
    rw [Finset.mem_insert, hU, h0]
    simp only [n1, n2, n3, false_or, and_false, or_false, and_true, Nat.pos_iff_ne_zero, ne_eq]
    exact bool2 _ _ _
  rw [hP]
  unfold unused
  by_cases c1 : ({-1, 0} : Finset ℤ) ∈ U <;>
    by_cases c2 : ({0, 1} : Finset ℤ) ∈ insert ({-1, 0} : Finset ℤ) U
  · rw [Finset.insert_eq_of_mem c2, Finset.insert_eq_of_mem c1, if_neg (m2.1 c2), if_neg (m1.1 c1)]
    omega
  · rw [Finset.card_insert_of_notMem c2, Finset.insert_eq_of_mem c1,
      if_pos (not_not.1 fun h => c2 (m2.2 h)), if_neg (m1.1 c1)]
  · rw [Finset.insert_eq_of_mem c2, Finset.card_insert_of_notMem c1, if_neg (m2.1 c2),
      if_pos (not_not.1 fun h => c1 (m1.2 h))]
  · rw [Finset.card_insert_of_notMem c2, Finset.card_insert_of_notMem c1,
      if_pos (not_not.1 fun h => c2 (m2.2 h)), if_pos (not_not.1 fun h => c1 (m1.2 h))]

/-- The number of chunks is that of the prediction. -/
theorem numChunks_eq [Field F] (cs : Cs F) : numChunks cs
    = (cs.permutation.length + (cs.degree - 2) - 1) / (cs.degree - 2) := by
  have hdeg : 3 ≤ cs.degree := Verif.Plonk.three_le_degree cs
  have h := Verif.Permutation.lt_chunks_length (size := cs.degree - 2) (by omega) cs.permutation
  unfold numChunks
  generalize (chunks (cs.degree - 2) cs.permutation).length = L at h
  generalize cs.permutation.length = P at h ⊢
  have hs : 0 < cs.degree - 2 := by omega
  generalize cs.degree - 2 = s at h hs ⊢
  have h' : ∀ i, i < L ↔ i < (P + s - 1) / s := by
    intro i
    rw [h, Nat.lt_iff_add_one_le, Nat.lt_iff_add_one_le, Nat.le_div_iff_mul_le hs, add_mul]
    omega
  rcases lt_trichotomy L ((P + s - 1) / s) with hlt | heq | hgt
  · exact absurd ((h' L).2 hlt) (lt_irrefl _)
  · exact heq
  · exact absurd ((h' _).1 hgt) (lt_irrefl _)

theorem numChunks_lt [Field F] (cs : Cs F) (i : ℕ) :
    i < numChunks cs ↔ i * (cs.degree - 2) < cs.permutation.length := by
  have hdeg : 3 ≤ cs.degree := Verif.Plonk.three_le_degree cs
  exact Verif.Permutation.lt_chunks_length (by omega) cs.permutation i

end Rots

/-! ## The proof -/

section Main
variable {F K A : Type} [Field F] [LinearOrder F] [AddCommGroup A] [Module F A] [Field K]
  [LinearOrder K] {threads : ℕ} {e : Enc F K A} {pr : Params A} {d : Domain F} {cs : Cs F}

theorem prepare_lengths {pk : Pk F} {ws : List (Circuit F)} {P : Prep F}
    (h : prepare threads d pk ws = some P) :
    P.instPolys.length = ws.length ∧ P.advicePolys.length = ws.length ∧
    ((P.vi.zip P.ci).zip (P.va.zip P.ca)).length = ws.length := by
  unfold prepare at h
  obtain ⟨ip, h0, h⟩ := Option.bind_eq_some_iff.1 h
  obtain ⟨ic, h1, h⟩ := Option.bind_eq_some_iff.1 h
  obtain ⟨ap, h0', h⟩ := Option.bind_eq_some_iff.1 h
  obtain ⟨ac, h2, h⟩ := Option.bind_eq_some_iff.1 h
  obtain ⟨⟨vf, c1⟩, -, h⟩ := Option.bind_eq_some_iff.1 h
  obtain ⟨⟨va, c2⟩, h3, h⟩ := Option.bind_eq_some_iff.1 h
  obtain ⟨⟨vi, c3⟩, h4, h⟩ := Option.bind_eq_some_iff.1 h
  obtain ⟨⟨cf, c4⟩, -, h⟩ := Option.bind_eq_some_iff.1 h
  obtain ⟨⟨ca, c5⟩, h5, h⟩ := Option.bind_eq_some_iff.1 h
  obtain ⟨⟨ci, c6⟩, h6, h⟩ := Option.bind_eq_some_iff.1 h
  obtain ⟨⟨_, c7⟩, -, h⟩ := Option.bind_eq_some_iff.1 h
  obtain ⟨⟨_, c8⟩, -, h⟩ := Option.bind_eq_some_iff.1 h
  obtain ⟨⟨_, c9⟩, -, h⟩ := Option.bind_eq_some_iff.1 h
  obtain ⟨⟨_, c10⟩, -, rfl⟩ := Option.map_eq_some_iff.1 h
  have l1 := mapS_length h3
  have l2 := mapS_length h4
  have l3 := mapS_length h5
  have l4 := mapS_length h6
  have l5 := mapM_length h1
  have l6 := mapM_length h2
  have l7 := mapM_length h0
  have l8 := mapM_length h0'
  refine ⟨l7, l8, ?_⟩
  clear h0 h1 h0' h2 h3 h4 h5 h6
  simp only [List.length_zip, List.length_map] at l1 l2 l3 l4 l5 l6 l7 l8 ⊢
  omega

/-- Bytes written from the challenge `x` on, given what is opened. -/
theorem proverOpen_writes (he : e.Valid) (hd : d.Valid) (rng : Rng F) (pk : Pk F)
    (hpk : pk.permPolys.length = cs.permutation.length) (os : List (Opens (List F × F)))
    (hp : ∀ o ∈ os, o.permutation.length = numChunks cs)
    (hl : ∀ o ∈ os, o.lookups.length = cs.lookups.length) (x : F) (hx : x ≠ 0)
    (hrot : ∀ r ∈ allRots cs, ∀ r' ∈ allRots cs, (d.n : ℤ) ∣ r - r' → r = r')
    (random : List F) (pieces : List (List F)) :
    Writes (proverOpen threads e pr d cs rng pk os x random pieces) fun _ k =>
      k = os.length * (cs.instanceQueries.length + cs.adviceQueries.length
          + (3 * numChunks cs - 1) + 5 * cs.lookups.length) + cs.fixedQueries.length + 1
        + cs.permutation.length
        + (1 + (groups (openRots cs (numChunks cs) os.length cs.permutation.length)).card)
        + (1 + 2 * pr.k + 2) := by
  have hsets : (setsOf (proverQueries d cs x os pk.permPolys.length)).length
      = (groups (openRots cs (numChunks cs) os.length cs.permutation.length)).card := by
    rw [hpk, proverQueries_rots hd cs x os (numChunks cs) _ hp hl]
    apply setsOf_length
    have hall : ∀ p ∈ openRots cs (numChunks cs) os.length cs.permutation.length,
        p.2 ∈ allRots cs := by
      rintro ⟨p, r⟩ h
      rw [mem_openRots] at h
      unfold allRots
      rw [List.mem_append]
      have hcol : ∀ c, (c, r) ∈ columnRots cs → r ∈ (columnRots cs).map Prod.snd :=
        fun c hc => List.mem_map.2 ⟨_, hc, rfl⟩
      cases p with
      | inst i c => exact Or.inl (hcol ⟨.inst, c⟩ ((mem_columnRots _ _ _).2 h.2))
      | advice i c => exact Or.inl (hcol ⟨.advice, c⟩ ((mem_columnRots _ _ _).2 h.2))
      | fixed c => exact Or.inl (hcol ⟨.fixed, c⟩ ((mem_columnRots _ _ _).2 h))
      | perm i s => rcases h.2.2 with rfl | rfl | ⟨-, rfl⟩ <;> simp
      | lookupZ i l => rcases h.2.2 with rfl | rfl <;> simp
      | lookupA i l => rcases h.2.2 with rfl | rfl <;> simp
      | lookupS i l => rcases h.2.2 with rfl; simp
      | permCommon j => rcases h.2 with rfl; simp
      | h => cases h; simp
      | random => cases h; simp
    intro p hp' q hq' heq
    refine hrot _ (hall p hp') _ (hall q hq') ?_
    rw [Verif.Domain.rotateOmega_eq hd, Verif.Domain.rotateOmega_eq hd] at heq
    have heq := mul_left_cancel₀ hx heq
    have hw : d.omega ≠ 0 := by
      intro h0
      have := hd.omega_prim.pow_eq_one
      rw [h0, zero_pow (by positivity)] at this
      exact zero_ne_one this
    rw [hd.n_eq]
    rw [← hd.omega_prim.zpow_eq_one_iff_dvd, zpow_sub₀ hw, heq, div_self (zpow_ne_zero _ hw)]
  unfold proverOpen
  refine (Writes.mapM (P := fun _ => True) (c := cs.instanceQueries.length) fun o _ =>
    (evalQueries_writes he x _ _).mono fun _ k h => ⟨h, trivial⟩).bind fun _ k1 ⟨_, h1, _⟩ => ?_
  refine (Writes.mapM (P := fun _ => True) (c := cs.adviceQueries.length) fun o _ =>
    (evalQueries_writes he x _ _).mono fun _ k h => ⟨h, trivial⟩).bind fun _ k2 ⟨_, h2, _⟩ => ?_
  refine (evalQueries_writes he x _ _).bind fun _ k3 h3 => (Writes.panics _).bind fun _ k4 h4 =>
    (Writes.writeScalar he _).bind fun _ k5 h5 => ?_
  refine (Writes.mapM (P := fun _ => True) (c := 1) fun o _ =>
    (Writes.writeScalar he _).mono fun _ k h => ⟨h, trivial⟩).bind fun _ k6 ⟨_, h6, _⟩ => ?_
  refine (Writes.mapM (P := fun _ => True) (c := 3 * numChunks cs - 1) fun o ho =>
    (evalPermutation_writes he _ x _).mono fun _ k h =>
      ⟨by rw [h, List.length_map, hp o ho], trivial⟩).bind fun _ k7 ⟨_, h7, _⟩ => ?_
  refine (Writes.mapM (P := fun _ => True) (c := 5 * cs.lookups.length) fun o ho =>
    (Writes.mapM (P := fun _ => True) (c := 5) fun q _ =>
      (evalLookup_writes he x _).mono fun _ k h => ⟨h, trivial⟩).mono fun _ k ⟨_, h, _⟩ =>
      ⟨by rw [h, hl o ho]; ring, trivial⟩).bind fun _ k8 ⟨_, h8, _⟩ => ?_
  refine Writes.mapErr _ ((multiopen_writes he _ _ _ _).mono fun _ k h => ?_)
  rw [h, hsets, h1, h2, h3, h4.2, h5, h6, h7, h8, hpk]
  ring

/-- Everything that is written, given that no challenge is zero. -/
theorem createProof_length (he : e.Valid) (hd : d.Valid) (ht : threads ≠ 0)
    (hq : d.quotientPolyDegree = cs.degree - 1) (delta repr : F) (rng : Rng F) (pk : Pk F)
    (hpk : pk.permutations.length = cs.permutation.length)
    (hpk' : pk.permPolys.length = cs.permutation.length)
    (circuits instances : List (List (List F))) (hadv : ∀ c ∈ circuits, c.length = cs.numAdvice)
    (hrot : ∀ r ∈ allRots cs, ∀ r' ∈ allRots cs, (d.n : ℤ) ∣ r - r' → r = r')
    (st st' : WState F)
    (hrun : createProof threads e pr d cs delta repr rng pk circuits instances st = .ok ((), st'))
    (hne : ∀ c ∈ st'.trace, c ≠ 0) :
    st'.out.length = st.out.length + 32 * (
      circuits.length * (cs.numAdvice + 3 * cs.lookups.length + numChunks cs)
      + cs.degree
      + circuits.length * (cs.instanceQueries.length + cs.adviceQueries.length
          + (3 * numChunks cs - 1) + 5 * cs.lookups.length) + cs.fixedQueries.length + 1
        + cs.permutation.length
        + (1 + (groups (openRots cs (numChunks cs) circuits.length cs.permutation.length)).card)
        + (1 + 2 * pr.k + 2)) := by
  have hdeg : 3 ≤ cs.degree := Verif.Plonk.three_le_degree cs
  unfold createProof at hrun
  obtain ⟨ws, s1, r1, hrun⟩ := bind_ok hrun
  obtain ⟨k1, e1, l1, e1'⟩ := proverColumns_writes he repr rng circuits instances hadv _ _ _ r1
  obtain ⟨P, s2, r2, hrun⟩ := bind_ok hrun
  obtain ⟨k2, e2, l2, e2'⟩ := Writes.panics _ _ _ _ r2
  obtain ⟨p1, p2, p3⟩ := prepare_lengths l2
  obtain ⟨⟨theta, beta, gamma, permuted, products, lookupProducts, ctx⟩, s3, r3, hrun⟩ := bind_ok hrun
  obtain ⟨k3, e3, e3', q1, q2, q3, q4, q5, q6⟩ :=
    proverProducts_writes he delta rng pk hpk ws P p3 _ _ _ r3
  dsimp only at q1 q2 q3 q4 q5 q6 hrun
  obtain ⟨⟨x, random, pieces⟩, s4, r4, hrun⟩ := bind_ok hrun
  obtain ⟨k4, e4, e4'⟩ := proverQuotient_writes he hd ht delta rng P theta beta gamma permuted products
    lookupProducts ctx _ _ _ r4
  have hx : x ∈ s4.trace := by
    unfold proverQuotient at r4
    obtain ⟨_, _, -, r4⟩ := bind_ok r4
    obtain ⟨_, _, -, r4⟩ := bind_ok r4
    obtain ⟨_, _, -, r4⟩ := bind_ok r4
    obtain ⟨_, _, -, r4⟩ := bind_ok r4
    obtain ⟨_, _, -, r4⟩ := bind_ok r4
    obtain ⟨_, _, -, r4⟩ := bind_ok r4
    obtain ⟨_, _, -, r4⟩ := bind_ok r4
    obtain ⟨x', s5, hs5, r4⟩ := bind_ok r4
    cases r4
    unfold W.squeeze at hs5
    dsimp only at hs5
    split at hs5
    · cases hs5
    · cases hs5; simp
  have hx0 : x ≠ 0 := by
    have hg := prover_grows threads e pr d cs rng pk _ x random pieces s4.trace s4.absorbed s4.out
      _ _ hrun
    exact hne x (hg.subset hx)
  generalize hos : (((P.instPolys.zip P.advicePolys).zip
    (ws.mapIdx fun i w => w.advice.mapIdx fun j _ => rng.adviceBlind i j)).zip
      (products.zip (permuted.zip lookupProducts))).map opensOf = os at hrun
  have hosl : os.length = circuits.length := by
    rw [← hos]
    simp only [List.length_map, List.length_zip, List.length_mapIdx]
    omega
  have hmem : ∀ o ∈ os, o.permutation.length = numChunks cs ∧
      o.lookups.length = cs.lookups.length := by
    intro o ho
    rw [← hos, List.mem_map] at ho
    obtain ⟨⟨a, b, c, c'⟩, hm, rfl⟩ := ho
    obtain ⟨-, hm⟩ := List.of_mem_zip hm
    obtain ⟨hb, hm⟩ := List.of_mem_zip hm
    obtain ⟨hc, hc'⟩ := List.of_mem_zip hm
    unfold opensOf
    simp only [List.length_map, List.length_zip]
    rw [q4 b hb, q2 c hc, q6 c' hc', min_self]
    exact ⟨rfl, rfl⟩
  obtain ⟨k5, e5, e5'⟩ := proverOpen_writes he hd rng pk hpk' os (fun o ho => (hmem o ho).1)
    (fun o ho => (hmem o ho).2) x hx0 hrot random pieces _ _ _ hrun
  rw [hosl] at e5'
  rw [l1] at e3'
  have hdq : 1 + d.quotientPolyDegree = cs.degree := by omega
  rw [hdq] at e4'
  rw [e5, e4, e3, e2, e1, e1', e2', e3', e4', e5']
  ring

theorem permPolys_length {Col : Type} {columns : List Col} {n : ℕ} {omega delta : F}
    (mapping : Verif.Copy.Cell columns n → Verif.Copy.Cell columns n) :
    (Verif.Permutation.permPolys omega delta mapping).length = columns.length := by
  unfold Verif.Permutation.permPolys; simp

/-- **C33.** Keys are generated for the domain of the constraint system's degree, the rotations at
which something is opened are different modulo the number of rows, and no challenge is zero.
Then the proof of any positive number of circuits is as long as `proof_size` says, except for 32
bytes for each of the sets of `unused`. -/
theorem proof_size {k : ℕ} {c : Consts F} (hc : c.Valid) (ht : threads ≠ 0)
    (hd : Verif.Domain.new c cs.degree k = some d) (hk : pr.k = k) (he : e.Valid)
    (hperm : PermQueried cs) (delta repr : F) (fv : List (List F))
    (calls : List (Verif.Copy.Call Column)) (pk : Pk F)
    (hpk : Verif.Plonk.keygenPk threads d cs.blindingFactors fv (Verif.Plonk.permsOf d cs delta calls)
      = some pk)
    (rng : Rng F) (circuits instances : List (List (List F))) (hm : circuits ≠ [])
    (hadv : ∀ c ∈ circuits, c.length = cs.numAdvice)
    (hrot : ∀ r ∈ allRots cs, ∀ r' ∈ allRots cs, (d.n : ℤ) ∣ r - r' → r = r')
    (st' : WState F)
    (hrun : createProof threads e pr d cs delta repr rng pk circuits instances W.init
      = .ok ((), st'))
    (hne : ∀ c ∈ st'.trace, c ≠ 0) (cost : CircuitCost) (hcost : measure k cs = some cost) :
    (cost.proofSize circuits.length).size 32 32 = st'.out.length + 32 * unused cs := by
  obtain ⟨h1, -⟩ := Verif.Domain.new_spec c hc cs.degree k
  obtain ⟨hv, hdk, hq, -⟩ := h1 d hd
  have hpk1 : pk.permutations.length = cs.permutation.length ∧
      pk.permPolys.length = cs.permutation.length := by
    unfold Verif.Plonk.keygenPk at hpk
    obtain ⟨_, -, hpk⟩ := Option.bind_eq_some_iff.1 hpk
    obtain ⟨_, -, hpk⟩ := Option.bind_eq_some_iff.1 hpk
    obtain ⟨pp, hpp, hpk⟩ := Option.bind_eq_some_iff.1 hpk
    obtain ⟨_, -, hpk⟩ := Option.bind_eq_some_iff.1 hpk
    obtain ⟨_, -, hpk⟩ := Option.bind_eq_some_iff.1 hpk
    obtain ⟨_, -, hpk⟩ := Option.bind_eq_some_iff.1 hpk
    obtain ⟨_, -, rfl⟩ := Option.map_eq_some_iff.1 hpk
    have hl : (Verif.Plonk.permsOf d cs delta calls).length = cs.permutation.length :=
      permPolys_length _
    exact ⟨hl, by rw [← hl]; exact mapM_length hpp⟩
  have hlen := createProof_length he hv ht (by omega) delta repr rng pk hpk1.1 hpk1.2 circuits instances hadv
    hrot _ _ hrun hne
  have hm' : 0 < circuits.length := List.length_pos_iff.2 hm
  have hsets := pointSets_unused cs hperm (numChunks cs) circuits.length cs.permutation.length hm'
    (by rw [numChunks_lt]; simp) (by rw [numChunks_lt]; simp)
  unfold measure at hcost
  split_ifs at hcost
  cases hcost
  have hch := numChunks_eq cs
  have hz : (if numChunks cs = 0 then numChunks cs else 3 * numChunks cs - 1)
      = 3 * numChunks cs - 1 := by
    split_ifs <;> omega
  have hinit : (W.init : WState F).out.length = 0 := rfl
  rw [hlen, hinit, hk]
  simp only [ProofSize.size, CircuitCost.proofSize, CircuitCost.marginalProofSize, Contribution.len,
    Contribution.mul, Contribution.add]
  rw [show CircuitCost.permutationChunks ⟨k, cs.degree, cs.numAdvice, cs.instanceQueries.length,
    cs.adviceQueries.length, cs.fixedQueries.length, cs.lookups.length, cs.permutation.length,
    (pointSets cs).length⟩ = numChunks cs from hch.symm, hz, hsets]
  ring

/-- With a lookup the prediction is exact. -/
theorem proof_size_exact {k : ℕ} {c : Consts F} (hc : c.Valid) (ht : threads ≠ 0)
    (hd : Verif.Domain.new c cs.degree k = some d) (hk : pr.k = k) (he : e.Valid)
    (hperm : PermQueried cs) (delta repr : F) (fv : List (List F))
    (calls : List (Verif.Copy.Call Column)) (pk : Pk F)
    (hpk : Verif.Plonk.keygenPk threads d cs.blindingFactors fv (Verif.Plonk.permsOf d cs delta calls)
      = some pk)
    (rng : Rng F) (circuits instances : List (List (List F))) (hm : circuits ≠ [])
    (hadv : ∀ c ∈ circuits, c.length = cs.numAdvice)
    (hrot : ∀ r ∈ allRots cs, ∀ r' ∈ allRots cs, (d.n : ℤ) ∣ r - r' → r = r')
    (st' : WState F)
    (hrun : createProof threads e pr d cs delta repr rng pk circuits instances W.init
      = .ok ((), st'))
    (hne : ∀ c ∈ st'.trace, c ≠ 0) (cost : CircuitCost) (hcost : measure k cs = some cost)
    (hlookup : cs.lookups ≠ []) :
    (cost.proofSize circuits.length).size 32 32 = st'.out.length := by
  rw [proof_size hc ht hd hk he hperm delta repr fv calls pk hpk rng circuits instances hm hadv hrot
    st' hrun hne cost hcost]
  have : cs.lookups.length ≠ 0 := by simpa using hlookup
  unfold unused
  rw [if_neg (fun h => this h.1), if_neg (fun h => this h.1)]
  rfl

/-- **C33.** The bytes that one more circuit costs are those of `marginal_proof_size`. -/
theorem marginal_proof_size (cost : CircuitCost) (instances point scalar : ℕ) :
    (cost.proofSize (instances + 1)).size point scalar
      = (cost.proofSize instances).size point scalar
        + cost.marginalProofSize.size point scalar := by
  simp only [ProofSize.size, CircuitCost.proofSize, CircuitCost.marginalProofSize, Contribution.len,
    Contribution.mul, Contribution.add, Marginal.size]
  ring

end Main

/-- Constraint systems made by the API satisfy the hypothesis on the columns of the permutation. -/
theorem reach_permQueried {F : Type} [Field F] {cs : Cs F} (h : Verif.Cs.Reach cs) :
    PermQueried cs := by
  rintro ⟨kind, i⟩ hc
  have := (Verif.Cs.reach_inv h).permQueried _ hc
  rw [mem_columnRots]
  cases kind <;> exact this

/-! ## Example -/

section Example
open Verif.Plonk Verif.Protocol Verif.Toy

/-- A proof of the circuit with a lookup of the protocol's example meets all hypotheses of
`proof_size_exact`: it has the predicted 1056 bytes. -/
theorem ex_size : ∃ d pr pk st' cost, Verif.Domain.new consts97 4 3 = some d ∧
    Commitment.Params.new 2 consts97 exHash 3 = some pr ∧
    keygenPk 2 d 5 exFixed (permsOf d exCs 5 exCalls) = some pk ∧
    createProof 2 (enc sumHash uniform) pr d exCs 5 2 exRng pk [[[1, 1, 0, 0, 0, 0, 0, 0]]] [[]]
      W.init = .ok ((), st') ∧
    measure 3 exCs = some cost ∧ (cost.proofSize 1).size 32 32 = 1056 ∧ st'.out.length = 1056 := by
  have h := exRun_eq
  unfold exRun at h
  obtain ⟨d, hd, h⟩ := Option.bind_eq_some_iff.1 h
  obtain ⟨pr, hpr, h⟩ := Option.bind_eq_some_iff.1 h
  obtain ⟨pk, hpk, h⟩ := Option.bind_eq_some_iff.1 h
  obtain ⟨vk, -, h⟩ := Option.bind_eq_some_iff.1 h
  obtain ⟨⟨_, st'⟩, hst, htr⟩ := Option.map_eq_some_iff.1 h
  have hst : createProof 2 (enc sumHash uniform) pr d exCs 5 2 exRng pk
      [[[1, 1, 0, 0, 0, 0, 0, 0]]] [[]] W.init = .ok ((), st') := by
    rcases hc : createProof 2 (enc sumHash uniform) pr d exCs 5 2 exRng pk
      [[[1, 1, 0, 0, 0, 0, 0, 0]]] [[]] W.init with err | ⟨u, s⟩
    · rw [hc] at hst; cases hst
    · rw [hc] at hst; cases hst; rfl
  obtain ⟨cost, hcost⟩ : ∃ cost, measure 3 exCs = some cost :=
    Option.isSome_iff_exists.1 (by decide +kernel)
  have hsize : (cost.proofSize 1).size 32 32 = 1056 := by
    have : (measure 3 exCs).map (fun c => (c.proofSize 1).size 32 32) = some 1056 := by
      decide +kernel
    rw [hcost] at this
    exact Option.some.inj this
  obtain ⟨h1, -⟩ := Verif.Domain.new_spec consts97 consts97_valid 4 3
  obtain ⟨hv, hk, hq, -⟩ := h1 d hd
  have hn : d.n = 8 := by rw [hv.n_eq, hk]; rfl
  have hprk : pr.k = 3 := by
    have : (Commitment.Params.new 2 consts97 exHash 3).map (·.k) = some 3 := by decide +kernel
    rw [hpr] at this
    exact Option.some.inj this
  have htrace : st'.trace = [14, 13, 45, 46, 76, 19, 76, 85, 68, 36, 93, 93, 72, 33].reverse := by
    rw [← htr, List.reverse_reverse]
  have key := proof_size_exact consts97_valid (threads := 2) (by decide) (cs := exCs)
    (d := d) (by rw [ex_degree]; exact hd) hprk (enc_valid _ _)
    (by intro c hc; revert c; decide) 5 2 exFixed exCalls pk (by rw [ex_bf]; exact hpk) exRng
    [[[1, 1, 0, 0, 0, 0, 0, 0]]] [[]] (by simp) (by simp [exCs]) (by rw [hn]; decide) st' hst
    (by rw [htrace]; decide) cost hcost (by simp [exCs])
  exact ⟨d, pr, pk, st', cost, hd, hpr, hpk, hst, hcost, hsize, by rw [← key]; exact hsize⟩

/-- The circuit without the lookup and the permutation. -/
def exPlain : Cs (ZMod 97) := { exCs with permutation := [], lookups := [] }

/-- The length of a proof for that circuit. -/
def plainSize : Option ℕ :=
  (Verif.Domain.new consts97 3 3).bind fun d =>
  (Commitment.Params.new 2 consts97 exHash 3).bind fun pr =>
  (keygenPk 2 d 5 exFixed (permsOf d exPlain 5 [])).bind fun pk =>
  (createProof 2 (enc sumHash uniform) pr d exPlain 5 2 exRng pk [[[1, 1, 0, 0, 0, 0, 0, 0]]] [[]]
    W.init).toOption.map fun r => r.2.out.length

/-- **C33, the exception.** Without lookups the prediction is not the length: here it is 640 bytes
for a proof of 576, for the two sets of points that nothing is opened at. -/
theorem plain_size : plainSize = some 576 ∧ unused exPlain = 2 ∧
    (measure 3 exPlain).map (fun c => (c.proofSize 1).size 32 32) = some 640 := by
  decide +kernel

end Example

end Verif.Cost
