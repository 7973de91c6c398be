import Verif.Cost.Model
import Verif.Multiopen.Sets
import Mathlib.Data.Finset.Card
import Mathlib.Data.Finset.Image
import Mathlib.Data.List.Sort
import Mathlib.Data.Finset.Sort

/-!
# Counting sets of rotations

`groups Q` is the specification: for a list of (object, rotation) queries, the distinct sets of
rotations of the objects queried.
-/

namespace Verif.Cost

open Verif.Cs (Cs Column)
open Verif.Multiopen (insertNew firsts mem_firsts nodup_firsts btreeSet mem_btreeSet btreeSet_ext
  Query pointsOf commitmentsOf indicesOf setsOf)

/-- The rotations `c` is queried at. -/
def rots {ι : Type*} [DecidableEq ι] (Q : List (ι × ℤ)) (c : ι) : Finset ℤ :=
  ((Q.filter fun q => q.1 = c).map Prod.snd).toFinset

/-- The distinct sets of rotations. -/
def groups {ι : Type*} [DecidableEq ι] (Q : List (ι × ℤ)) : Finset (Finset ℤ) :=
  (Q.map Prod.fst).toFinset.image (rots Q)

section
variable {ι : Type*} [DecidableEq ι]

theorem mem_rots (Q : List (ι × ℤ)) (c : ι) (r : ℤ) : r ∈ rots Q c ↔ (c, r) ∈ Q := by
  simp [rots]

theorem mem_groups (Q : List (ι × ℤ)) (S : Finset ℤ) :
    S ∈ groups Q ↔ ∃ c r, (c, r) ∈ Q ∧ S = rots Q c := by
  unfold groups
  rw [Finset.mem_image]
  constructor
  · rintro ⟨c, hc, rfl⟩
    rw [List.mem_toFinset, List.mem_map] at hc
    obtain ⟨⟨c', r⟩, h, rfl⟩ := hc
    exact ⟨c', r, h, rfl⟩
  · rintro ⟨c, r, h, rfl⟩
    exact ⟨c, by rw [List.mem_toFinset, List.mem_map]; exact ⟨_, h, rfl⟩, rfl⟩

end

/-! ## The prediction -/

theorem insertQuery_spec (c : Column) (r : ℤ) (m : List (Column × List ℤ))
    (hk : (m.map Prod.fst).Nodup) :
    ((insertQuery c r m).map Prod.fst).Nodup ∧
    (∀ c', c' ∈ (insertQuery c r m).map Prod.fst ↔ c' = c ∨ c' ∈ m.map Prod.fst) ∧
    (∀ e ∈ insertQuery c r m, (e ∈ m ∧ e.1 ≠ c) ∨ (e.1 = c ∧ (∃ l, (c, l) ∈ m ∧
      e.2 = if r ∈ l then l else l ++ [r])) ∨ (e = (c, [r]) ∧ c ∉ m.map Prod.fst)) := by
  induction m with
  | nil => refine ⟨by simp [insertQuery], by simp [insertQuery], by simp [insertQuery]⟩
  | cons a m ih =>
    obtain ⟨c', l⟩ := a
    rw [List.map_cons, List.nodup_cons] at hk
    obtain ⟨i1, i2, i3⟩ := ih hk.2
    unfold insertQuery
    by_cases h : c' = c
    · subst h
      rw [if_pos rfl]
      refine ⟨?_, ?_, ?_⟩
      · rw [List.map_cons, List.nodup_cons]; exact hk
      · intro c''; simp
      · intro e he
        rcases List.mem_cons.1 he with rfl | he
        · exact Or.inr (Or.inl ⟨rfl, l, by simp, rfl⟩)
        · refine Or.inl ⟨List.mem_cons_of_mem _ he, ?_⟩
          intro hec
          exact hk.1 (List.mem_map.2 ⟨e, he, hec⟩)
    · rw [if_neg h]
      refine ⟨?_, ?_, ?_⟩
      · rw [List.map_cons, List.nodup_cons]
        refine ⟨?_, i1⟩
        rw [i2]
        rintro (h' | h')
        · exact h h'
        · exact hk.1 h'
      · intro c''
        rw [List.map_cons, List.mem_cons, i2, List.map_cons, List.mem_cons]
        tauto
      · intro e he
        rcases List.mem_cons.1 he with rfl | he
        · exact Or.inl ⟨by simp, h⟩
        · rcases i3 e he with ⟨h1, h2⟩ | ⟨h1, l', h2, h3⟩ | ⟨h1, h2⟩
          · exact Or.inl ⟨List.mem_cons_of_mem _ h1, h2⟩
          · exact Or.inr (Or.inl ⟨h1, l', List.mem_cons_of_mem _ h2, h3⟩)
          · refine Or.inr (Or.inr ⟨h1, ?_⟩)
            rw [List.map_cons, List.mem_cons]
            rintro (h' | h')
            · exact h h'.symm
            · exact h2 h'

theorem columnQueries_spec (Q : List (Column × ℤ)) :
    let m := Q.foldl (fun m q => insertQuery q.1 q.2 m) []
    (m.map Prod.fst).Nodup ∧ (∀ c, c ∈ m.map Prod.fst ↔ c ∈ Q.map Prod.fst) ∧
      ∀ e ∈ m, e.2.Nodup ∧ ∀ r, r ∈ e.2 ↔ (e.1, r) ∈ Q := by
  induction Q using List.reverseRecOn with
  | nil => simp
  | append_singleton Q q ih =>
    obtain ⟨c, r⟩ := q
    dsimp only at ih ⊢
    rw [List.foldl_append]
    simp only [List.foldl_cons, List.foldl_nil]
    obtain ⟨i1, i2, i3⟩ := ih
    obtain ⟨j1, j2, j3⟩ := insertQuery_spec c r _ i1
    refine ⟨j1, ?_, ?_⟩
    · intro c'
      rw [j2, i2, List.map_append, List.mem_append]
      simp only [List.map_cons, List.map_nil, List.mem_singleton]
      tauto
    · intro e he
      rcases j3 e he with ⟨h1, h2⟩ | ⟨h1, l, h2, h3⟩ | ⟨h1, h2⟩
      · obtain ⟨k1, k2⟩ := i3 e h1
        refine ⟨k1, fun r' => ?_⟩
        rw [k2, List.mem_append, List.mem_singleton, Prod.mk.injEq]
        tauto
      · obtain ⟨k1, k2⟩ := i3 _ h2
        dsimp only at k1 k2
        rw [h3, h1]
        by_cases hr : r ∈ l
        · rw [if_pos hr]
          refine ⟨k1, fun r' => ?_⟩
          rw [k2, List.mem_append, List.mem_singleton, Prod.mk.injEq]
          constructor
          · exact Or.inl
          · rintro (h | ⟨-, rfl⟩)
            · exact h
            · exact (k2 _).1 hr
        · rw [if_neg hr]
          refine ⟨?_, fun r' => ?_⟩
          · rw [List.nodup_append]
            refine ⟨k1, by simp, ?_⟩
            intro x hx y hy
            rw [List.mem_singleton] at hy
            subst hy
            rintro rfl
            exact hr hx
          · rw [List.mem_append, List.mem_singleton, k2, List.mem_append, List.mem_singleton,
              Prod.mk.injEq]
            tauto
      · subst h1
        refine ⟨by simp, fun r' => ?_⟩
        rw [i2] at h2
        rw [List.mem_singleton, List.mem_append, List.mem_singleton, Prod.mk.injEq]
        constructor
        · rintro rfl; exact Or.inr ⟨rfl, rfl⟩
        · rintro (h | ⟨-, h⟩)
          · exact absurd (List.mem_map_of_mem (f := Prod.fst) h) h2
          · exact h

/-- Strictly increasing lists are told apart by their elements. -/
theorem sorted_ext {l m : List ℤ} (hl : l.Pairwise (· < ·)) (hm : m.Pairwise (· < ·))
    (h : l.toFinset = m.toFinset) : l = m := by
  refine List.Perm.eq_of_pairwise (le := (· < ·)) (fun a b _ _ h1 h2 => by omega) hl hm ?_
  rw [List.perm_ext_iff_of_nodup (hl.imp fun h => ne_of_lt h) (hm.imp fun h => ne_of_lt h)]
  intro a
  rw [← List.mem_toFinset, h, List.mem_toFinset]

theorem length_of_sorted (L : List (List ℤ)) (hn : L.Nodup) (hs : ∀ l ∈ L, l.Pairwise (· < ·)) :
    L.length = (L.map List.toFinset).toFinset.card := by
  rw [List.toFinset_card_of_nodup, List.length_map]
  exact (List.nodup_map_iff_inj_on hn).2 fun l hl m hm h => sorted_ext (hs l hl) (hs m hm) h

/-- Entries of sets of points beside those of the columns. -/
def extraSets {F : Type*} (cs : Cs F) : List (List ℤ) :=
  [[0, 1], [-1, 0], [0], [0, 1]] ++
    if cs.permutation.length > cs.degree - 2 then [[-((cs.blindingFactors : ℤ) + 1), 0, 1]] else []

theorem pointSets_firsts {F : Type*} (cs : Cs F) :
    pointSets cs = firsts ((((costQueries cs).foldl (fun m q => insertQuery q.1 q.2 m) []).map
      fun e => e.2.insertionSort (· ≤ ·)) ++ extraSets cs) := by
  have hi : insertSet = insertNew := by
    funext s x
    unfold insertSet insertNew
    congr
  unfold pointSets extraSets firsts
  rw [hi]
  generalize (costQueries cs).foldl (fun m q => insertQuery q.1 q.2 m) [] = m
  simp only [List.foldl_append, List.foldl_map]
  generalize m.foldl (fun s e => insertNew s (e.2.insertionSort (· ≤ ·))) [] = s
  by_cases h : cs.permutation.length > cs.degree - 2
  · rw [if_pos h, if_pos h]; simp only [List.foldl_cons, List.foldl_nil]
  · rw [if_neg h, if_neg h]; simp only [List.foldl_cons, List.foldl_nil]

/-- The number of point sets of the prediction. -/
theorem pointSets_length {F : Type*} (cs : Cs F) :
    (pointSets cs).length = (groups (costQueries cs) ∪
      ((extraSets cs).map List.toFinset).toFinset).card := by
  rw [pointSets_firsts]
  obtain ⟨h1, h2, h3⟩ := columnQueries_spec (costQueries cs)
  generalize (costQueries cs).foldl (fun m q => insertQuery q.1 q.2 m) [] = m at h1 h2 h3 ⊢
  have hex : ∀ l ∈ extraSets cs, l.Pairwise (· < ·) := by
    intro l hl
    have hbf : (0 : ℤ) ≤ (cs.blindingFactors : ℤ) := Int.natCast_nonneg _
    unfold extraSets at hl
    rw [List.mem_append] at hl
    rcases hl with hl | hl
    · fin_cases hl <;> decide
    · split_ifs at hl
      · rw [List.mem_singleton] at hl
        subst hl
        simp only [List.pairwise_cons, List.mem_cons, List.not_mem_nil, or_false,
          forall_eq_or_imp, forall_eq, IsEmpty.forall_iff, implies_true, and_true, List.Pairwise.nil]
        omega
      · cases hl
  rw [length_of_sorted _ (nodup_firsts _)]
  · congr 1
    ext S
    rw [List.mem_toFinset, List.mem_map, Finset.mem_union, mem_groups, List.mem_toFinset,
      List.mem_map]
    constructor
    · rintro ⟨l, hl, rfl⟩
      rw [mem_firsts, List.mem_append, List.mem_map] at hl
      rcases hl with ⟨e, he, rfl⟩ | hl
      · left
        have hk : e.1 ∈ (costQueries cs).map Prod.fst := (h2 _).1 (List.mem_map_of_mem he)
        obtain ⟨⟨c, r⟩, hq, hc⟩ := List.mem_map.1 hk
        refine ⟨c, r, hq, ?_⟩
        ext r'
        rw [List.mem_toFinset, List.mem_insertionSort, (h3 e he).2, mem_rots, ← hc]
      · exact Or.inr ⟨l, hl, rfl⟩
    · rintro (⟨c, r, hq, rfl⟩ | ⟨l, hl, rfl⟩)
      · obtain ⟨e, he, hc⟩ := List.mem_map.1 ((h2 c).2 (List.mem_map.2 ⟨_, hq, rfl⟩))
        refine ⟨e.2.insertionSort (· ≤ ·), ?_, ?_⟩
        · rw [mem_firsts, List.mem_append, List.mem_map]; exact Or.inl ⟨e, he, rfl⟩
        · ext r'
          rw [List.mem_toFinset, List.mem_insertionSort, (h3 e he).2, mem_rots, hc]
      · refine ⟨l, ?_, rfl⟩
        rw [mem_firsts, List.mem_append]; exact Or.inr hl
  · intro l hl
    rw [mem_firsts, List.mem_append, List.mem_map] at hl
    rcases hl with ⟨e, he, rfl⟩ | hl
    · have hs : (e.2.insertionSort (· ≤ ·)).Pairwise (· ≤ ·) := List.pairwise_insertionSort _ _
      have hn : (e.2.insertionSort (· ≤ ·)).Nodup := (List.perm_insertionSort _ _).nodup_iff.2 (h3 e he).1
      exact (hs.and hn).imp fun h => lt_of_le_of_ne h.1 h.2
    · exact hex l hl

/-! ## The opening argument -/

theorem card_image_congr {α β γ : Type*} [DecidableEq α] [DecidableEq β] [DecidableEq γ]
    (C : Finset α) (f : α → β) (g : α → γ)
    (h : ∀ a ∈ C, ∀ b ∈ C, f a = f b ↔ g a = g b) : (C.image f).card = (C.image g).card := by
  induction C using Finset.induction_on with
  | empty => rfl
  | insert a C ha ih =>
    have ih := ih fun a ha b hb => h a (Finset.mem_insert_of_mem ha) b (Finset.mem_insert_of_mem hb)
    have hm : f a ∈ C.image f ↔ g a ∈ C.image g := by
      simp only [Finset.mem_image]
      constructor
      · rintro ⟨b, hb, e⟩
        exact ⟨b, hb, (h b (Finset.mem_insert_of_mem hb) a (Finset.mem_insert_self _ _)).1 e⟩
      · rintro ⟨b, hb, e⟩
        exact ⟨b, hb, (h b (Finset.mem_insert_of_mem hb) a (Finset.mem_insert_self _ _)).2 e⟩
    rw [Finset.image_insert, Finset.image_insert]
    by_cases hf : f a ∈ C.image f
    · rw [Finset.insert_eq_of_mem hf, Finset.insert_eq_of_mem (hm.1 hf), ih]
    · rw [Finset.card_insert_of_notMem hf, Finset.card_insert_of_notMem (fun h => hf (hm.2 h)), ih]

/-- The number of point sets of the opening argument, for queries at rotations of one point that
are told apart by their rotations. -/
theorem setsOf_length {F ι : Type} [DecidableEq F] [DecidableEq ι] (Q : List (ι × ℤ)) (pt : ℤ → F)
    (hpt : ∀ p ∈ Q, ∀ q ∈ Q, pt p.2 = pt q.2 → p.2 = q.2) :
    (setsOf (Q.map fun q => (⟨pt q.2, q.1, ()⟩ : Query F ι Unit))).length = (groups Q).card := by
  generalize hqs : (Q.map fun q => (⟨pt q.2, q.1, ()⟩ : Query F ι Unit)) = qs
  have hc : ∀ c, c ∈ commitmentsOf qs ↔ c ∈ Q.map Prod.fst := by
    intro c
    unfold commitmentsOf
    rw [mem_firsts, ← hqs, List.map_map]; rfl
  have hidx : ∀ c i, i ∈ indicesOf qs (pointsOf qs) c ↔
      ∃ r, (c, r) ∈ Q ∧ (pointsOf qs).idxOf (pt r) = i := by
    intro c i
    unfold indicesOf
    simp only [List.mem_map, List.mem_filter, decide_eq_true_eq]
    constructor
    · rintro ⟨q, ⟨hq, hqc⟩, rfl⟩
      rw [← hqs, List.mem_map] at hq
      obtain ⟨⟨c', r⟩, h, rfl⟩ := hq
      dsimp only at hqc; subst hqc
      exact ⟨r, h, rfl⟩
    · rintro ⟨r, h, rfl⟩
      exact ⟨⟨pt r, c, ()⟩, ⟨by rw [← hqs]; exact List.mem_map.2 ⟨_, h, rfl⟩, rfl⟩, rfl⟩
  have hpts : ∀ c r, (c, r) ∈ Q → pt r ∈ pointsOf qs := by
    intro c r h
    unfold pointsOf
    rw [mem_firsts, ← hqs, List.map_map]
    exact List.mem_map.2 ⟨_, h, rfl⟩
  have hinj : ∀ c r c' r', (c, r) ∈ Q → (c', r') ∈ Q →
      (pointsOf qs).idxOf (pt r) = (pointsOf qs).idxOf (pt r') → r = r' := by
    intro c r c' r' h h' e
    exact hpt _ h _ h' ((List.idxOf_inj (hpts _ _ h)).1 e)
  have hle : ∀ a b, (∀ r, (a, r) ∈ Q ↔ (b, r) ∈ Q) → Multiopen.setOf qs a = Multiopen.setOf qs b := by
    intro a b h
    apply btreeSet_ext
    intro j
    rw [hidx, hidx]
    simp only [h]
  have hone : ∀ a b, Multiopen.setOf qs a = Multiopen.setOf qs b → ∀ r, (a, r) ∈ Q → (b, r) ∈ Q := by
    intro a b h r hr
    have : (pointsOf qs).idxOf (pt r) ∈ Multiopen.setOf qs b := by
      rw [← h]; unfold Multiopen.setOf; rw [mem_btreeSet, hidx]; exact ⟨r, hr, rfl⟩
    unfold Multiopen.setOf at this
    rw [mem_btreeSet, hidx] at this
    obtain ⟨r', h1, h2⟩ := this
    rw [hinj _ _ _ _ hr h1 h2.symm]; exact h1
  unfold setsOf groups
  rw [← List.toFinset_card_of_nodup (nodup_firsts _)]
  have h1 : (firsts ((commitmentsOf qs).map (Multiopen.setOf qs))).toFinset
      = (Q.map Prod.fst).toFinset.image (Multiopen.setOf qs) := by
    ext S
    rw [List.mem_toFinset, mem_firsts, List.mem_map, Finset.mem_image]
    simp only [hc, List.mem_toFinset]
  rw [h1]
  apply card_image_congr
  intro a _ b _
  constructor
  · intro h
    ext r
    rw [mem_rots, mem_rots]
    exact ⟨hone a b h r, hone b a h.symm r⟩
  · intro h
    apply hle
    intro r
    rw [← mem_rots, h, mem_rots]

end Verif.Cost
