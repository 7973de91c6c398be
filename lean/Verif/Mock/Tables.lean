import Verif.Cs.Props
import Verif.Selectors.Model

/-!
# The tables of lookups are fixed columns
-/

namespace Verif.Mock

open Verif.Cs (Column Kind Cs Lookup Reach)
open Verif.Expr

variable {F : Type*}

/-- The tables of all lookups are queries of fixed columns. -/
def FixedTables (cs : Cs F) : Prop := ∀ l ∈ cs.lookups, ∀ e ∈ l.table, ∃ q, e = .fixed q

theorem queryFixedIndex_lookups (cs : Cs F) (c : ℕ) :
    (cs.queryFixedIndex c).2.lookups = cs.lookups := by
  unfold Cs.queryFixedIndex
  split <;> rfl

theorem queryInstanceIndex_lookups (cs : Cs F) (c : ℕ) (r : ℤ) :
    (cs.queryInstanceIndex c r).2.lookups = cs.lookups := by
  unfold Cs.queryInstanceIndex
  split <;> rfl

theorem queryAdviceIndex_lookups {cs : Cs F} {c : ℕ} {r : ℤ} {p} (h : cs.queryAdviceIndex c r = some p) :
    p.2.lookups = cs.lookups := by
  unfold Cs.queryAdviceIndex at h
  split at h
  · cases h; rfl
  · split_ifs at h
    cases h; rfl

theorem enableEquality_lookups {cs cs' : Cs F} {c : Column} (h : cs.enableEquality c = some cs') :
    cs'.lookups = cs.lookups := by
  unfold Cs.enableEquality at h
  obtain ⟨p, hp, h⟩ := Option.map_eq_some_iff.1 h
  have hl : p.2.lookups = cs.lookups := by
    unfold Cs.queryAnyIndex at hp
    split at hp
    · exact queryAdviceIndex_lookups hp
    · cases hp; exact queryFixedIndex_lookups _ _
    · cases hp; exact queryInstanceIndex_lookups _ _ _
  dsimp only at h
  split_ifs at h <;> subst h <;> exact hl

theorem lookupEntries_tables (m : List (Expr F × ℕ)) : ∀ (cs : Cs F) es cs',
    cs.lookupEntries m = some (es, cs') →
    cs'.lookups = cs.lookups ∧ ∀ p ∈ es, ∃ q, p.2 = .fixed q := by
  induction m with
  | nil => intro cs es cs' h; cases h; simp
  | cons x m ih =>
    intro cs es cs' h
    rw [Cs.lookupEntries] at h
    split_ifs at h
    obtain ⟨r, hr, h⟩ := Option.map_eq_some_iff.1 h
    obtain ⟨h1, h2⟩ := ih _ r.1 r.2 hr
    cases h
    refine ⟨h1.trans (queryFixedIndex_lookups _ _), ?_⟩
    intro p hp
    rcases List.mem_cons.1 hp with rfl | hp
    · exact ⟨_, rfl⟩
    · exact h2 p hp

/-- Every reachable constraint system has such tables. -/
theorem reach_tables {cs : Cs F} (h : Reach cs) : FixedTables cs := by
  induction h with
  | init => intro l hl; cases hl
  | fixedColumn _ ih => exact ih
  | adviceColumn _ ih => exact ih
  | instanceColumn _ ih => exact ih
  | selector _ _ ih => exact ih
  | queryFixed c _ ih =>
    intro l hl
    refine ih l ?_
    rwa [show (Cs.queryFixed _ c).2.lookups = _ from queryFixedIndex_lookups _ _] at hl
  | queryAdvice _ hq ih =>
    intro l hl
    obtain ⟨r, hr, rfl⟩ := Option.map_eq_some_iff.1 hq
    rw [show r.2.lookups = _ from queryAdviceIndex_lookups hr] at hl
    exact ih l hl
  | queryInstance c r _ ih =>
    intro l hl
    refine ih l ?_
    rwa [show (Cs.queryInstance _ c r).2.lookups = _ from queryInstanceIndex_lookups _ _ _] at hl
  | enableEquality _ he ih =>
    intro l hl
    rw [enableEquality_lookups he] at hl
    exact ih l hl
  | enableConstant _ he ih =>
    intro l hl
    unfold Cs.enableConstant at he
    split_ifs at he
    · cases he; exact ih l hl
    · rw [enableEquality_lookups he] at hl
      exact ih l hl
  | createGate _ _ hg ih =>
    unfold Cs.createGate at hg
    split_ifs at hg
    cases hg
    exact ih
  | lookup _ _ hq ih =>
    obtain ⟨r, hr, rfl⟩ := Option.map_eq_some_iff.1 hq
    obtain ⟨h1, h2⟩ := lookupEntries_tables _ _ r.1 r.2 hr
    intro l hl
    dsimp only at hl
    rw [h1] at hl
    rcases List.mem_append.1 hl with hl | hl
    · exact ih l hl
    · rw [List.mem_singleton] at hl
      subst hl
      intro e he
      obtain ⟨p, hp, rfl⟩ := List.mem_map.1 he
      exact h2 p hp
  | setMinimumDegree d _ ih => exact ih

theorem mapM_forall₂_of {α β : Type*} (f : α → Option β) : ∀ (l : List α) (l' : List β),
    l.mapM f = some l' → List.Forall₂ (fun a b => f a = some b) l l' := by
  intro l
  induction l with
  | nil => intro l' h; cases h; exact .nil
  | cons a l ih =>
    intro l' h
    rw [List.mapM_cons] at h
    rcases ha : f a with _ | b
    · rw [ha] at h; cases h
    rcases hl : l.mapM f with _ | bs
    · rw [ha, hl] at h; cases h
    rw [ha, hl] at h
    cases h
    exact .cons ha (ih bs hl)

variable [Field F] [DecidableEq F]

/-- Selector compression leaves them alone. -/
theorem compress_tables {cs cs' : Cs F} {sels : List (List Bool)} {polys : List (List F)}
    {smap : List ℕ} (h : Selectors.compressSelectors cs sels = some (cs', polys, smap))
    (ht : FixedTables cs) : FixedTables cs' := by
  unfold Selectors.compressSelectors at h
  split_ifs at h
  obtain ⟨d, -, h⟩ := Option.bind_eq_some_iff.1 h
  obtain ⟨r, -, h⟩ := Option.bind_eq_some_iff.1 h
  obtain ⟨sm, -, h⟩ := Option.bind_eq_some_iff.1 h
  obtain ⟨repl, -, h⟩ := Option.bind_eq_some_iff.1 h
  obtain ⟨gates, -, h⟩ := Option.bind_eq_some_iff.1 h
  obtain ⟨lookups, hl, h⟩ := Option.map_eq_some_iff.1 h
  cases h
  have hf := mapM_forall₂_of _ _ _ hl
  intro l' hl' e' he'
  dsimp only at hl'
  obtain ⟨i, hi, rfl⟩ := List.mem_iff_getElem.1 hl'
  have hi' : i < cs.lookups.length := by rw [hf.length_eq]; exact hi
  have hrel := (List.forall₂_iff_get.1 hf).2 i hi' hi
  simp only [List.get_eq_getElem] at hrel
  obtain ⟨inp, -, hrel⟩ := Option.bind_eq_some_iff.1 hrel
  obtain ⟨tab, htab, hrel⟩ := Option.map_eq_some_iff.1 hrel
  rw [← hrel] at he'
  have hf2 := mapM_forall₂_of _ _ _ htab
  obtain ⟨j, hj, rfl⟩ := List.mem_iff_getElem.1 he'
  have hj' : j < (cs.lookups[i]).table.length := by rw [hf2.length_eq]; exact hj
  have hrel2 := (List.forall₂_iff_get.1 hf2).2 j hj' hj
  simp only [List.get_eq_getElem] at hrel2
  obtain ⟨q, hq⟩ := ht _ (List.getElem_mem hi') _ (List.getElem_mem hj')
  rw [hq] at hrel2
  refine ⟨q, ?_⟩
  exact (Option.some.inj hrel2).symm

end Verif.Mock
