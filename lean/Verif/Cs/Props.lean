import Verif.Cs.Model
import Verif.Expr.Props
import Mathlib.Data.Finset.Card
import Mathlib.Data.Finset.Dedup
import Mathlib.Data.Finset.Lattice.Basic

/-! # C31: query registration -/

namespace Verif.Cs

open Verif.Expr

variable {F : Type*}

/-! ### Specification -/

/-- Every query of the expression is registered under its index. -/
def Cs.Covers (cs : Cs F) : Expr F → Prop
  | .constant _ => True
  | .selector s => s.index < cs.numSelectors
  | .fixed q => cs.fixedQueries[q.index]? = some (q.column, q.rotation)
  | .advice q => cs.adviceQueries[q.index]? = some (q.column, q.rotation)
  | .inst q => cs.instanceQueries[q.index]? = some (q.column, q.rotation)
  | .negated a => cs.Covers a
  | .sum a b => cs.Covers a ∧ cs.Covers b
  | .product a b => cs.Covers a ∧ cs.Covers b
  | .scaled a _ => cs.Covers a

/-- The constraint systems a `configure` function can reach.  The fields of a query are private to
the crate, so the expressions handed to `create_gate` and `lookup` contain only queries this
constraint system returned (`Covers`); `Built` is not required, since the variants of
`Expression` are public. -/
inductive Reach : Cs F → Prop
  | init : Reach {}
  | fixedColumn {cs} : Reach cs → Reach cs.fixedColumn.2
  | adviceColumn {cs} : Reach cs → Reach cs.adviceColumn.2
  | instanceColumn {cs} : Reach cs → Reach cs.instanceColumn.2
  | selector {cs} (b) : Reach cs → Reach (cs.selector b).2
  | queryFixed {cs} (c) : Reach cs → Reach (cs.queryFixed c).2
  | queryAdvice {cs c r p} : Reach cs → cs.queryAdvice c r = some p → Reach p.2
  | queryInstance {cs} (c r) : Reach cs → Reach (cs.queryInstance c r).2
  | enableEquality {cs c cs'} : Reach cs → cs.enableEquality c = some cs' → Reach cs'
  | enableConstant {cs c cs'} : Reach cs → cs.enableConstant c = some cs' → Reach cs'
  | createGate {cs polys cs'} : Reach cs → (∀ e ∈ polys, cs.Covers e) →
      cs.createGate polys = some cs' → Reach cs'
  | lookup {cs m p} : Reach cs → (∀ x ∈ m, cs.Covers x.1) → cs.lookup m = some p → Reach p.2
  | setMinimumDegree {cs} (d) : Reach cs → Reach (cs.setMinimumDegree d)

/-- Number of distinct rotations at which advice column `c` is queried. -/
def Cs.distinctRotations (cs : Cs F) (c : ℕ) : ℕ :=
  ((cs.adviceQueries.filter fun q => q.1 = c).map Prod.snd).toFinset.card

/-- `cs'` extends `cs`: all registered queries keep their index. -/
structure Extends (cs cs' : Cs F) : Prop where
  advice : cs.adviceQueries <+: cs'.adviceQueries
  fixed : cs.fixedQueries <+: cs'.fixedQueries
  inst : cs.instanceQueries <+: cs'.instanceQueries
  numFixed : cs.numFixed ≤ cs'.numFixed
  numAdvice : cs.numAdvice ≤ cs'.numAdvice
  numInstance : cs.numInstance ≤ cs'.numInstance
  numSelectors : cs.numSelectors ≤ cs'.numSelectors
  gates : cs.gates <+: cs'.gates
  permutation : cs.permutation <+: cs'.permutation

theorem Extends.refl (cs : Cs F) : Extends cs cs :=
  ⟨List.prefix_refl _, List.prefix_refl _, List.prefix_refl _, le_refl _, le_refl _, le_refl _,
    le_refl _, List.prefix_refl _, List.prefix_refl _⟩

theorem Extends.trans {a b c : Cs F} (h : Extends a b) (g : Extends b c) : Extends a c :=
  ⟨h.1.trans g.1, h.2.trans g.2, h.3.trans g.3, h.4.trans g.4, h.5.trans g.5, h.6.trans g.6,
    h.7.trans g.7, h.8.trans g.8, h.9.trans g.9⟩

theorem prefix_get {α : Type*} {l m : List α} (h : l <+: m) {i : ℕ} {x : α}
    (hi : l[i]? = some x) : m[i]? = some x := by
  obtain ⟨t, rfl⟩ := h
  rw [List.getElem?_append_left (List.getElem?_eq_some_iff.1 hi).1, hi]

/-- Queries stay valid. -/
theorem Extends.covers {cs cs' : Cs F} (h : Extends cs cs') {e : Expr F} (he : cs.Covers e) :
    cs'.Covers e := by
  induction e with
  | constant => trivial
  | selector s => exact lt_of_lt_of_le he h.numSelectors
  | fixed q => exact prefix_get h.fixed he
  | advice q => exact prefix_get h.advice he
  | inst q => exact prefix_get h.inst he
  | negated a ih => exact ih he
  | scaled a f ih => exact ih he
  | sum a b iha ihb => exact ⟨iha he.1, ihb he.2⟩
  | product a b iha ihb => exact ⟨iha he.1, ihb he.2⟩

/-! ### The search -/

theorem findQuery_spec (q : ℕ × ℤ) (l : List (ℕ × ℤ)) : ∀ i,
    match findQuery q i l with
    | some j => i ≤ j ∧ l[j - i]? = some q
    | none => q ∉ l := by
  induction l with
  | nil => intro i; simp [findQuery]
  | cons p l ih =>
    intro i
    rw [findQuery]
    by_cases h : p = q
    · subst h; simp
    · rw [if_neg h]
      have := ih (i + 1)
      rcases hf : findQuery q (i + 1) l with _ | j
      · rw [hf] at this
        simp only [List.mem_cons, not_or]
        exact ⟨Ne.symm h, this⟩
      · rw [hf] at this
        refine ⟨by omega, ?_⟩
        rw [show j - i = j - (i + 1) + 1 by omega, List.getElem?_cons_succ]
        exact this.2

theorem findQuery_some {q : ℕ × ℤ} {l : List (ℕ × ℤ)} {j : ℕ} (h : findQuery q 0 l = some j) :
    l[j]? = some q := by
  have := findQuery_spec q l 0
  rw [h] at this
  simpa using this.2

theorem findQuery_none {q : ℕ × ℤ} {l : List (ℕ × ℤ)} (h : findQuery q 0 l = none) : q ∉ l := by
  have := findQuery_spec q l 0
  rw [h] at this
  exact this

theorem findQuery_of_get {q : ℕ × ℤ} {l : List (ℕ × ℤ)} (hn : l.Nodup) {j : ℕ}
    (h : l[j]? = some q) : findQuery q 0 l = some j := by
  obtain ⟨hj, hq⟩ := List.getElem?_eq_some_iff.1 h
  rcases hf : findQuery q 0 l with _ | i
  · exact absurd (hq ▸ List.getElem_mem hj) (findQuery_none hf)
  · have hi := findQuery_some hf
    obtain ⟨hi', hq'⟩ := List.getElem?_eq_some_iff.1 hi
    rw [(List.Nodup.getElem_inj_iff hn).1 (hq'.trans hq.symm)]

/-! ### The invariant -/

structure Inv (cs : Cs F) : Prop where
  advice : cs.adviceQueries.Nodup
  fixed : cs.fixedQueries.Nodup
  inst : cs.instanceQueries.Nodup
  fixedCur : ∀ q ∈ cs.fixedQueries, q.2 = 0
  count : cs.numAdviceQueries.length = cs.numAdvice
  counts : ∀ c (h : c < cs.numAdviceQueries.length),
    cs.numAdviceQueries[c] = (cs.adviceQueries.filter fun q => q.1 = c).length
  adviceLt : ∀ q ∈ cs.adviceQueries, q.1 < cs.numAdvice
  perm : cs.permutation.Nodup
  permQueried : ∀ c ∈ cs.permutation, match c.kind with
    | .advice => (c.index, 0) ∈ cs.adviceQueries
    | .fixed => (c.index, 0) ∈ cs.fixedQueries
    | .inst => (c.index, 0) ∈ cs.instanceQueries
  gates : ∀ g ∈ cs.gates, g ≠ [] ∧ ∀ e ∈ g, cs.Covers e
  lookups : ∀ l ∈ cs.lookups, l.input.length = l.table.length ∧
    (∀ e ∈ l.input, cs.Covers e ∧ e.containsSimple = false) ∧
      ∀ e ∈ l.table, cs.Covers e ∧ e.sels = []
  constants : cs.constants.Nodup
  constantsEq : ∀ c ∈ cs.constants, (⟨.fixed, c⟩ : Column) ∈ cs.permutation

theorem nodup_snoc {α : Type*} {l : List α} {a : α} (h : l.Nodup) (ha : a ∉ l) :
    (l ++ [a]).Nodup := by
  rw [List.nodup_append]
  refine ⟨h, by simp, ?_⟩
  intro x hx y hy
  simp only [List.mem_singleton] at hy
  subst hy
  rintro rfl
  exact ha hx

/-- One query of a fixed column. -/
theorem queryFixedIndex_spec (cs : Cs F) (hi : Inv cs) (c : ℕ) :
    Inv (cs.queryFixedIndex c).2 ∧ Extends cs (cs.queryFixedIndex c).2 ∧
      (cs.queryFixedIndex c).2.fixedQueries[(cs.queryFixedIndex c).1]? = some (c, 0) ∧
      (cs.queryFixedIndex c).2.lookups = cs.lookups ∧
      (cs.queryFixedIndex c).2.constants = cs.constants ∧
      ((c, 0) ∈ cs.fixedQueries → (cs.queryFixedIndex c).2 = cs) := by
  rw [Cs.queryFixedIndex]
  rcases hf : findQuery (c, 0) 0 cs.fixedQueries with _ | i
  · have hn := findQuery_none hf
    have hext : Extends cs { cs with fixedQueries := cs.fixedQueries ++ [(c, 0)] } :=
      ⟨List.prefix_refl _, List.prefix_append _ _, List.prefix_refl _, le_refl _, le_refl _,
        le_refl _, le_refl _, List.prefix_refl _, List.prefix_refl _⟩
    refine ⟨?_, hext, by simp, rfl, rfl, fun h => absurd h hn⟩
    exact
      { advice := hi.advice
        fixed := nodup_snoc hi.fixed hn
        inst := hi.inst
        fixedCur := by
          intro q hq
          rcases List.mem_append.1 hq with hq | hq
          · exact hi.fixedCur q hq
          · simp only [List.mem_singleton] at hq; rw [hq]
        count := hi.count
        counts := hi.counts
        adviceLt := hi.adviceLt
        perm := hi.perm
        permQueried := by
          intro col hcol
          have := hi.permQueried col hcol
          rcases col with ⟨_ | _ | _, k⟩
          · exact this
          · exact List.mem_append_left _ this
          · exact this
        gates := fun g hg => ⟨(hi.gates g hg).1, fun e he => hext.covers ((hi.gates g hg).2 e he)⟩
        lookups := fun l hl => ⟨(hi.lookups l hl).1,
          fun e he => ⟨hext.covers ((hi.lookups l hl).2.1 e he).1, ((hi.lookups l hl).2.1 e he).2⟩,
          fun e he =>
          ⟨hext.covers ((hi.lookups l hl).2.2 e he).1, ((hi.lookups l hl).2.2 e he).2⟩⟩
        constants := hi.constants
        constantsEq := hi.constantsEq }
  · exact ⟨hi, Extends.refl cs, findQuery_some hf, rfl, rfl, fun _ => rfl⟩

/-- One query of an instance column. -/
theorem queryInstanceIndex_spec (cs : Cs F) (hi : Inv cs) (c : ℕ) (r : ℤ) :
    Inv (cs.queryInstanceIndex c r).2 ∧ Extends cs (cs.queryInstanceIndex c r).2 ∧
      (cs.queryInstanceIndex c r).2.instanceQueries[(cs.queryInstanceIndex c r).1]?
        = some (c, r) ∧
      ((c, r) ∈ cs.instanceQueries → (cs.queryInstanceIndex c r).2 = cs) := by
  rw [Cs.queryInstanceIndex]
  rcases hf : findQuery (c, r) 0 cs.instanceQueries with _ | i
  · have hn := findQuery_none hf
    have hext : Extends cs { cs with instanceQueries := cs.instanceQueries ++ [(c, r)] } :=
      ⟨List.prefix_refl _, List.prefix_refl _, List.prefix_append _ _, le_refl _, le_refl _,
        le_refl _, le_refl _, List.prefix_refl _, List.prefix_refl _⟩
    refine ⟨?_, hext, by simp, fun h => absurd h hn⟩
    exact
      { advice := hi.advice
        fixed := hi.fixed
        inst := nodup_snoc hi.inst hn
        fixedCur := hi.fixedCur
        count := hi.count
        counts := hi.counts
        adviceLt := hi.adviceLt
        perm := hi.perm
        permQueried := by
          intro col hcol
          have := hi.permQueried col hcol
          rcases col with ⟨_ | _ | _, k⟩
          · exact this
          · exact this
          · exact List.mem_append_left _ this
        gates := fun g hg => ⟨(hi.gates g hg).1, fun e he => hext.covers ((hi.gates g hg).2 e he)⟩
        lookups := fun l hl => ⟨(hi.lookups l hl).1,
          fun e he => ⟨hext.covers ((hi.lookups l hl).2.1 e he).1, ((hi.lookups l hl).2.1 e he).2⟩,
          fun e he =>
          ⟨hext.covers ((hi.lookups l hl).2.2 e he).1, ((hi.lookups l hl).2.2 e he).2⟩⟩
        constants := hi.constants
        constantsEq := hi.constantsEq }
  · exact ⟨hi, Extends.refl cs, findQuery_some hf, fun _ => rfl⟩

/-- One query of an advice column: panics exactly on a column that was never allocated. -/
theorem queryAdviceIndex_spec (cs : Cs F) (hi : Inv cs) (c : ℕ) (r : ℤ) :
    (cs.queryAdviceIndex c r = none ↔ cs.numAdvice ≤ c) ∧
    ∀ i cs', cs.queryAdviceIndex c r = some (i, cs') →
      Inv cs' ∧ Extends cs cs' ∧ cs'.adviceQueries[i]? = some (c, r) ∧
      ((c, r) ∈ cs.adviceQueries → cs' = cs) := by
  rw [Cs.queryAdviceIndex]
  rcases hf : findQuery (c, r) 0 cs.adviceQueries with _ | i
  · have hn := findQuery_none hf
    constructor
    · simp only [dite_eq_right_iff, reduceCtorEq, imp_false, not_lt, hi.count]
    · intro i cs' h
      simp only at h
      split_ifs at h with hc
      simp only [Option.some.injEq, Prod.mk.injEq] at h
      obtain ⟨rfl, rfl⟩ := h
      have hext : Extends cs { cs with
          adviceQueries := cs.adviceQueries ++ [(c, r)]
          numAdviceQueries := cs.numAdviceQueries.set c (cs.numAdviceQueries[c] + 1) } :=
        ⟨List.prefix_append _ _, List.prefix_refl _, List.prefix_refl _, le_refl _, le_refl _,
          le_refl _, le_refl _, List.prefix_refl _, List.prefix_refl _⟩
      refine ⟨?_, hext, by simp, fun h => absurd h hn⟩
      exact
        { advice := nodup_snoc hi.advice hn
          fixed := hi.fixed
          inst := hi.inst
          fixedCur := hi.fixedCur
          count := by simpa using hi.count
          counts := by
            intro d hd
            simp only [List.length_set] at hd
            simp only [List.getElem_set, List.filter_append, List.length_append]
            by_cases hcd : c = d
            · subst hcd
              simp [hi.counts c hd]
            · simp [hcd, hi.counts d hd]
          adviceLt := by
            intro q hq
            rcases List.mem_append.1 hq with hq | hq
            · exact hi.adviceLt q hq
            · simp only [List.mem_singleton] at hq
              rw [hq, ← hi.count]
              exact hc
          perm := hi.perm
          permQueried := by
            intro col hcol
            have := hi.permQueried col hcol
            rcases col with ⟨_ | _ | _, k⟩
            · exact List.mem_append_left _ this
            · exact this
            · exact this
          gates := fun g hg =>
            ⟨(hi.gates g hg).1, fun e he => hext.covers ((hi.gates g hg).2 e he)⟩
          lookups := fun l hl => ⟨(hi.lookups l hl).1,
            fun e he =>
              ⟨hext.covers ((hi.lookups l hl).2.1 e he).1, ((hi.lookups l hl).2.1 e he).2⟩,
            fun e he =>
          ⟨hext.covers ((hi.lookups l hl).2.2 e he).1, ((hi.lookups l hl).2.2 e he).2⟩⟩
          constants := hi.constants
          constantsEq := hi.constantsEq }
  · have hg := findQuery_some hf
    have hlt := hi.adviceLt (c, r) (List.mem_of_getElem? hg)
    simp only at hlt
    refine ⟨by simp [hlt], ?_⟩
    intro j cs' h
    simp only [Option.some.injEq, Prod.mk.injEq] at h
    obtain ⟨rfl, rfl⟩ := h
    exact ⟨hi, Extends.refl _, hg, fun _ => rfl⟩

theorem queryAnyIndex_spec (cs : Cs F) (hi : Inv cs) (c : Column) (r : ℤ) (i : ℕ) (cs' : Cs F)
    (h : cs.queryAnyIndex c r = some (i, cs')) (hr : c.kind = .fixed → r = 0) :
    Inv cs' ∧ Extends cs cs' ∧ (match c.kind with
      | .advice => cs'.adviceQueries[i]? = some (c.index, r)
      | .fixed => cs'.fixedQueries[i]? = some (c.index, r)
      | .inst => cs'.instanceQueries[i]? = some (c.index, r)) ∧
      cs'.constants = cs.constants ∧ cs'.permutation = cs.permutation := by
  rcases c with ⟨_ | _ | _, k⟩
  · rw [Cs.queryAnyIndex] at h
    obtain ⟨h1, h2, h3, _⟩ := (queryAdviceIndex_spec cs hi k r).2 i cs' h
    refine ⟨h1, h2, h3, ?_⟩
    simp only [Cs.queryAdviceIndex] at h
    rcases hf : findQuery (k, r) 0 cs.adviceQueries with _ | j
    · rw [hf] at h
      simp only at h
      split_ifs at h
      simp only [Option.some.injEq, Prod.mk.injEq] at h
      obtain ⟨_, rfl⟩ := h
      exact ⟨rfl, rfl⟩
    · rw [hf] at h
      simp only [Option.some.injEq, Prod.mk.injEq] at h
      obtain ⟨_, rfl⟩ := h
      exact ⟨rfl, rfl⟩
  · have hr0 := hr rfl
    subst hr0
    simp only [Cs.queryAnyIndex, Option.some.injEq] at h
    obtain ⟨h1, h2, h3, _, h5, _⟩ := queryFixedIndex_spec cs hi k
    have hp : (cs.queryFixedIndex k).2.permutation = cs.permutation := by
      rw [Cs.queryFixedIndex]
      rcases findQuery (k, 0) 0 cs.fixedQueries with _ | j <;> rfl
    rw [h] at h1 h2 h3 h5 hp
    exact ⟨h1, h2, h3, h5, hp⟩
  · simp only [Cs.queryAnyIndex, Option.some.injEq] at h
    obtain ⟨h1, h2, h3, _⟩ := queryInstanceIndex_spec cs hi k r
    have hp : (cs.queryInstanceIndex k r).2.permutation = cs.permutation ∧
        (cs.queryInstanceIndex k r).2.constants = cs.constants := by
      rw [Cs.queryInstanceIndex]
      rcases findQuery (k, r) 0 cs.instanceQueries with _ | j <;> exact ⟨rfl, rfl⟩
    rw [h] at h1 h2 h3 hp
    exact ⟨h1, h2, h3, hp.2, hp.1⟩

/-- `enable_equality`; the hypothesis on constants leaves room for the column just pushed by
`enable_constant`. -/
theorem enableEquality_spec (cs : Cs F) (c : Column) (cs' : Cs F)
    (h : cs.enableEquality c = some cs') (extra : List ℕ) (cs0 : Cs F)
    (hcs : cs = { cs0 with constants := cs0.constants ++ extra }) (hi : Inv cs0)
    (hnd : (cs0.constants ++ extra).Nodup) (hex : ∀ d ∈ extra, c = ⟨.fixed, d⟩) :
    Inv cs' ∧ Extends cs cs' ∧ c ∈ cs'.permutation := by
  rw [Cs.enableEquality, Option.map_eq_some_iff] at h
  obtain ⟨⟨i, cs1⟩, hq, h⟩ := h
  simp only at h
  -- the query does not look at the constants
  have hq0 : ∃ cs2, cs0.queryAnyIndex c 0 = some (i, cs2) ∧
      cs1 = { cs2 with constants := cs0.constants ++ extra } := by
    subst hcs
    rcases c with ⟨_ | _ | _, k⟩
    · simp only [Cs.queryAnyIndex, Cs.queryAdviceIndex] at hq ⊢
      rcases hf : findQuery (k, 0) 0 cs0.adviceQueries with _ | j
      · rw [hf] at hq
        simp only at hq ⊢
        split_ifs at hq with hc
        simp only [Option.some.injEq, Prod.mk.injEq] at hq
        obtain ⟨rfl, rfl⟩ := hq
        rw [dif_pos hc]
        exact ⟨_, rfl, rfl⟩
      · rw [hf] at hq
        simp only [Option.some.injEq, Prod.mk.injEq] at hq
        obtain ⟨rfl, rfl⟩ := hq
        exact ⟨_, rfl, rfl⟩
    · simp only [Cs.queryAnyIndex, Cs.queryFixedIndex] at hq ⊢
      rcases hf : findQuery (k, 0) 0 cs0.fixedQueries with _ | j
      · rw [hf] at hq
        simp only [Option.some.injEq, Prod.mk.injEq] at hq ⊢
        obtain ⟨rfl, rfl⟩ := hq
        exact ⟨_, ⟨rfl, rfl⟩, rfl⟩
      · rw [hf] at hq
        simp only [Option.some.injEq, Prod.mk.injEq] at hq ⊢
        obtain ⟨rfl, rfl⟩ := hq
        exact ⟨_, ⟨rfl, rfl⟩, rfl⟩
    · simp only [Cs.queryAnyIndex, Cs.queryInstanceIndex] at hq ⊢
      rcases hf : findQuery (k, 0) 0 cs0.instanceQueries with _ | j
      · rw [hf] at hq
        simp only [Option.some.injEq, Prod.mk.injEq] at hq ⊢
        obtain ⟨rfl, rfl⟩ := hq
        exact ⟨_, ⟨rfl, rfl⟩, rfl⟩
      · rw [hf] at hq
        simp only [Option.some.injEq, Prod.mk.injEq] at hq ⊢
        obtain ⟨rfl, rfl⟩ := hq
        exact ⟨_, ⟨rfl, rfl⟩, rfl⟩
  obtain ⟨cs2, e1, e2⟩ := hq0
  obtain ⟨i2, x2, g2, k2, p2⟩ := queryAnyIndex_spec cs0 hi c 0 i cs2 e1 fun _ => rfl
  have hext1 : Extends cs cs1 := by
    rw [hcs, e2]
    exact ⟨x2.1, x2.2, x2.3, x2.4, x2.5, x2.6, x2.7, x2.8, x2.9⟩
  have hcov : ∀ (p : List Column) (e : Expr F), cs2.Covers e →
      ({ cs1 with permutation := p }).Covers e := by
    intro p e he
    subst e2
    induction e with
    | constant => trivial
    | selector s => exact he
    | fixed q => exact he
    | advice q => exact he
    | inst q => exact he
    | negated a ih => exact ih he
    | scaled a f ih => exact ih he
    | sum a b iha ihb => exact ⟨iha he.1, ihb he.2⟩
    | product a b iha ihb => exact ⟨iha he.1, ihb he.2⟩
  have hinv : ∀ p : List Column, p.Nodup → cs2.permutation ⊆ p →
      (∀ d ∈ p, d ∈ cs2.permutation ∨ d = c) → c ∈ p →
      Inv { cs1 with permutation := p } := by
    intro p hp hsub hmem hcp
    refine
      { advice := ?_, fixed := ?_, inst := ?_, fixedCur := ?_, count := ?_, counts := ?_,
        adviceLt := ?_, perm := hp, permQueried := ?_, gates := ?_, lookups := ?_,
        constants := ?_, constantsEq := ?_ }
    · subst e2; exact i2.advice
    · subst e2; exact i2.fixed
    · subst e2; exact i2.inst
    · subst e2; exact i2.fixedCur
    · subst e2; exact i2.count
    · subst e2; exact i2.counts
    · subst e2; exact i2.adviceLt
    · intro d hd
      subst e2
      rcases hmem d hd with hd | rfl
      · exact i2.permQueried d hd
      · rcases d with ⟨_ | _ | _, k⟩
        · exact List.mem_of_getElem? g2
        · exact List.mem_of_getElem? g2
        · exact List.mem_of_getElem? g2
    · intro g hg
      have hg' : g ∈ cs2.gates := by subst e2; exact hg
      exact ⟨(i2.gates g hg').1, fun e he => hcov p e ((i2.gates g hg').2 e he)⟩
    · intro l hl
      have hl' : l ∈ cs2.lookups := by subst e2; exact hl
      exact ⟨(i2.lookups l hl').1, fun e he => ⟨hcov p e ((i2.lookups l hl').2.1 e he).1,
        ((i2.lookups l hl').2.1 e he).2⟩, fun e he => ⟨hcov p e ((i2.lookups l hl').2.2 e he).1,
          ((i2.lookups l hl').2.2 e he).2⟩⟩
    · subst e2; exact hnd
    · intro d hd
      subst e2
      rcases List.mem_append.1 hd with hd | hd
      · apply hsub
        rw [p2]
        exact hi.constantsEq d hd
      · rw [← hex d hd]; exact hcp
  have hp1 : cs1.permutation = cs2.permutation := by rw [e2]
  split_ifs at h with hc
  · subst h
    rw [hp1] at hc
    have := hinv cs1.permutation (by rw [hp1]; exact i2.perm) (by rw [hp1]; exact fun _ h => h)
      (by rw [hp1]; exact fun d hd => .inl hd) (by rw [hp1]; exact hc)
    exact ⟨this, hext1, by rw [hp1]; exact hc⟩
  · subst h
    rw [hp1] at hc ⊢
    refine ⟨hinv _ (nodup_snoc i2.perm hc) (List.subset_append_left _ _) ?_ (by simp), ?_, by simp⟩
    · intro d hd
      rcases List.mem_append.1 hd with hd | hd
      · exact .inl hd
      · exact .inr (by simpa using hd)
    · refine hext1.trans ⟨List.prefix_refl _, List.prefix_refl _, List.prefix_refl _, le_refl _,
        le_refl _, le_refl _, le_refl _, List.prefix_refl _, ?_⟩
      rw [hp1]
      exact List.prefix_append _ _

theorem lookupEntries_spec (m : List (Expr F × ℕ)) : ∀ (cs : Cs F), Inv cs →
    (∀ x ∈ m, cs.Covers x.1) → ∀ es cs', cs.lookupEntries m = some (es, cs') →
    Inv cs' ∧ Extends cs cs' ∧ es.map Prod.fst = m.map Prod.fst ∧
      ∀ p ∈ es, cs'.Covers p.1 ∧ (cs'.Covers p.2 ∧ p.2.sels = []) ∧ p.1.containsSimple = false := by
  induction m with
  | nil =>
    intro cs hi _ es cs' h
    simp only [Cs.lookupEntries, Option.some.injEq, Prod.mk.injEq] at h
    obtain ⟨rfl, rfl⟩ := h
    exact ⟨hi, Extends.refl _, rfl, by simp⟩
  | cons x m ih =>
    intro cs hi hc es cs' h
    obtain ⟨input, table⟩ := x
    rw [Cs.lookupEntries] at h
    split_ifs at h with hs
    simp only [Option.map_eq_some_iff, Prod.mk.injEq, Prod.exists] at h
    obtain ⟨es', cs'', h, rfl, rfl⟩ := h
    obtain ⟨q1, q2, q3, _⟩ := queryFixedIndex_spec cs hi table
    obtain ⟨r1, r2, r3, r4⟩ := ih _ q1 (fun y hy => q2.covers (hc y (by simp [hy]))) _ _ h
    refine ⟨r1, q2.trans r2, by simp [r3], ?_⟩
    intro p hp
    rcases List.mem_cons.1 hp with rfl | hp
    · exact ⟨(q2.trans r2).covers (hc (input, table) (by simp)), ⟨prefix_get r2.fixed q3, rfl⟩,
        by simpa using hs⟩
    · exact r4 p hp

/-- The invariant holds in every reachable constraint system. -/
theorem reach_inv {cs : Cs F} (h : Reach cs) : Inv cs := by
  induction h with
  | init =>
    exact ⟨by simp, by simp, by simp, by simp, by simp, by simp, by simp, by simp, by simp, by simp,
      by simp, by simp, by simp⟩
  | @fixedColumn cs h hi =>
    have hext : Extends cs cs.fixedColumn.2 :=
      ⟨List.prefix_refl _, List.prefix_refl _, List.prefix_refl _, Nat.le_succ _, le_refl _,
        le_refl _, le_refl _, List.prefix_refl _, List.prefix_refl _⟩
    exact { hi with
      gates := fun g hg => ⟨(hi.gates g hg).1, fun e he => hext.covers ((hi.gates g hg).2 e he)⟩
      lookups := fun l hl => ⟨(hi.lookups l hl).1,
        fun e he => ⟨hext.covers ((hi.lookups l hl).2.1 e he).1, ((hi.lookups l hl).2.1 e he).2⟩,
        fun e he =>
          ⟨hext.covers ((hi.lookups l hl).2.2 e he).1, ((hi.lookups l hl).2.2 e he).2⟩⟩ }
  | @adviceColumn cs h hi =>
    have hext : Extends cs cs.adviceColumn.2 :=
      ⟨List.prefix_refl _, List.prefix_refl _, List.prefix_refl _, le_refl _, Nat.le_succ _,
        le_refl _, le_refl _, List.prefix_refl _, List.prefix_refl _⟩
    exact { hi with
      count := by simp [Cs.adviceColumn, hi.count]
      counts := by
        intro c hc
        simp only [Cs.adviceColumn, List.length_append, List.length_singleton] at hc
        simp only [Cs.adviceColumn, List.getElem_append]
        split_ifs with h
        · exact hi.counts c h
        · have hc' : c = cs.numAdvice := by have := hi.count; omega
          simp only [List.getElem_singleton]
          symm
          rw [List.length_eq_zero_iff, List.filter_eq_nil_iff]
          intro q hq
          have := hi.adviceLt q hq
          simp
          omega
      adviceLt := fun q hq => Nat.lt_succ_of_lt (hi.adviceLt q hq)
      gates := fun g hg => ⟨(hi.gates g hg).1, fun e he => hext.covers ((hi.gates g hg).2 e he)⟩
      lookups := fun l hl => ⟨(hi.lookups l hl).1,
        fun e he => ⟨hext.covers ((hi.lookups l hl).2.1 e he).1, ((hi.lookups l hl).2.1 e he).2⟩,
        fun e he =>
          ⟨hext.covers ((hi.lookups l hl).2.2 e he).1, ((hi.lookups l hl).2.2 e he).2⟩⟩ }
  | @instanceColumn cs h hi =>
    have hext : Extends cs cs.instanceColumn.2 :=
      ⟨List.prefix_refl _, List.prefix_refl _, List.prefix_refl _, le_refl _, le_refl _,
        Nat.le_succ _, le_refl _, List.prefix_refl _, List.prefix_refl _⟩
    exact { hi with
      gates := fun g hg => ⟨(hi.gates g hg).1, fun e he => hext.covers ((hi.gates g hg).2 e he)⟩
      lookups := fun l hl => ⟨(hi.lookups l hl).1,
        fun e he => ⟨hext.covers ((hi.lookups l hl).2.1 e he).1, ((hi.lookups l hl).2.1 e he).2⟩,
        fun e he =>
          ⟨hext.covers ((hi.lookups l hl).2.2 e he).1, ((hi.lookups l hl).2.2 e he).2⟩⟩ }
  | @selector cs b h hi =>
    have hext : Extends cs (cs.selector b).2 :=
      ⟨List.prefix_refl _, List.prefix_refl _, List.prefix_refl _, le_refl _, le_refl _,
        le_refl _, Nat.le_succ _, List.prefix_refl _, List.prefix_refl _⟩
    exact { hi with
      gates := fun g hg => ⟨(hi.gates g hg).1, fun e he => hext.covers ((hi.gates g hg).2 e he)⟩
      lookups := fun l hl => ⟨(hi.lookups l hl).1,
        fun e he => ⟨hext.covers ((hi.lookups l hl).2.1 e he).1, ((hi.lookups l hl).2.1 e he).2⟩,
        fun e he =>
          ⟨hext.covers ((hi.lookups l hl).2.2 e he).1, ((hi.lookups l hl).2.2 e he).2⟩⟩ }
  | @queryFixed cs c h hi => exact (queryFixedIndex_spec cs hi c).1
  | @queryAdvice cs c r p h hq hi =>
    rw [Cs.queryAdvice, Option.map_eq_some_iff] at hq
    obtain ⟨⟨i, cs'⟩, hq, rfl⟩ := hq
    exact ((queryAdviceIndex_spec cs hi c r).2 i cs' hq).1
  | @queryInstance cs c r h hi => exact (queryInstanceIndex_spec cs hi c r).1
  | @enableEquality cs c cs' h hq hi =>
    exact (enableEquality_spec cs c cs' hq [] cs (by simp) hi (by simpa using hi.constants)
      (by simp)).1
  | @enableConstant cs c cs' h hq hi =>
    rw [Cs.enableConstant] at hq
    split_ifs at hq with hc
    · simp only [Option.some.injEq] at hq
      subst hq
      exact hi
    · exact (enableEquality_spec _ _ cs' hq [c] cs rfl hi (nodup_snoc hi.constants hc)
        (by simp)).1
  | @createGate cs polys cs' h hcov hq hi =>
    rw [Cs.createGate] at hq
    split_ifs at hq with hp
    simp only [Option.some.injEq] at hq
    subst hq
    have hext : Extends cs { cs with gates := cs.gates ++ [polys] } :=
      ⟨List.prefix_refl _, List.prefix_refl _, List.prefix_refl _, le_refl _, le_refl _, le_refl _,
        le_refl _, List.prefix_append _ _, List.prefix_refl _⟩
    exact { hi with
      gates := by
        intro g hg
        rcases List.mem_append.1 hg with hg | hg
        · exact ⟨(hi.gates g hg).1, fun e he => hext.covers ((hi.gates g hg).2 e he)⟩
        · simp only [List.mem_singleton] at hg
          subst hg
          exact ⟨hp, fun e he => hext.covers (hcov e he)⟩
      lookups := fun l hl => ⟨(hi.lookups l hl).1,
        fun e he => ⟨hext.covers ((hi.lookups l hl).2.1 e he).1, ((hi.lookups l hl).2.1 e he).2⟩,
        fun e he =>
          ⟨hext.covers ((hi.lookups l hl).2.2 e he).1, ((hi.lookups l hl).2.2 e he).2⟩⟩ }
  | @lookup cs m p h hcov hq hi =>
    rw [Cs.lookup, Option.map_eq_some_iff] at hq
    obtain ⟨⟨es, cs'⟩, hq, rfl⟩ := hq
    obtain ⟨i1, x1, _, c1⟩ := lookupEntries_spec m cs hi hcov es cs' hq
    have hext : Extends cs' { cs' with
        lookups := cs'.lookups ++ [⟨es.map Prod.fst, es.map Prod.snd⟩] } :=
      ⟨List.prefix_refl _, List.prefix_refl _, List.prefix_refl _, le_refl _, le_refl _, le_refl _,
        le_refl _, List.prefix_refl _, List.prefix_refl _⟩
    exact { i1 with
      gates := fun g hg => ⟨(i1.gates g hg).1, fun e he => hext.covers ((i1.gates g hg).2 e he)⟩
      lookups := by
        intro l hl
        rcases List.mem_append.1 hl with hl | hl
        · exact ⟨(i1.lookups l hl).1, fun e he => ⟨hext.covers ((i1.lookups l hl).2.1 e he).1,
            ((i1.lookups l hl).2.1 e he).2⟩, fun e he =>
          ⟨hext.covers ((i1.lookups l hl).2.2 e he).1, ((i1.lookups l hl).2.2 e he).2⟩⟩
        · simp only [List.mem_singleton] at hl
          subst hl
          refine ⟨by simp, ?_, ?_⟩
          · intro e he
            obtain ⟨q, hq, rfl⟩ := List.mem_map.1 he
            exact ⟨hext.covers (c1 q hq).1, (c1 q hq).2.2⟩
          · intro e he
            obtain ⟨q, hq, rfl⟩ := List.mem_map.1 he
            exact ⟨hext.covers (c1 q hq).2.1.1, (c1 q hq).2.1.2⟩ }
  | @setMinimumDegree cs d h hi =>
    have hext : Extends cs (cs.setMinimumDegree d) :=
      ⟨List.prefix_refl _, List.prefix_refl _, List.prefix_refl _, le_refl _, le_refl _, le_refl _,
        le_refl _, List.prefix_refl _, List.prefix_refl _⟩
    exact { hi with
      gates := fun g hg => ⟨(hi.gates g hg).1, fun e he => hext.covers ((hi.gates g hg).2 e he)⟩
      lookups := fun l hl => ⟨(hi.lookups l hl).1,
        fun e he => ⟨hext.covers ((hi.lookups l hl).2.1 e he).1, ((hi.lookups l hl).2.1 e he).2⟩,
        fun e he =>
          ⟨hext.covers ((hi.lookups l hl).2.2 e he).1, ((hi.lookups l hl).2.2 e he).2⟩⟩ }

/-! ### C31 -/

/-- Re-querying returns the same index and changes nothing. -/
theorem requery_same {cs : Cs F} (h : Reach cs) :
    (∀ i c r, cs.adviceQueries[i]? = some (c, r) → cs.queryAdviceIndex c r = some (i, cs)) ∧
    (∀ i c, cs.fixedQueries[i]? = some (c, 0) → cs.queryFixedIndex c = (i, cs)) ∧
    (∀ i c r, cs.instanceQueries[i]? = some (c, r) → cs.queryInstanceIndex c r = (i, cs)) := by
  have hi := reach_inv h
  refine ⟨?_, ?_, ?_⟩
  · intro i c r hq
    rw [Cs.queryAdviceIndex, findQuery_of_get hi.advice hq]
  · intro i c hq
    rw [Cs.queryFixedIndex, findQuery_of_get hi.fixed hq]
  · intro i c r hq
    rw [Cs.queryInstanceIndex, findQuery_of_get hi.inst hq]

/-- A query returns an index under which exactly this (column, rotation) is registered, whatever
was registered before keeps its index, and each (column, rotation) has at most one index. -/
theorem query_stable {cs : Cs F} (h : Reach cs) :
    (∀ c r, (cs.queryAdviceIndex c r = none ↔ cs.numAdvice ≤ c) ∧
      ∀ i cs', cs.queryAdviceIndex c r = some (i, cs') →
        Extends cs cs' ∧ ∀ j, cs'.adviceQueries[j]? = some (c, r) ↔ j = i) ∧
    (∀ c, Extends cs (cs.queryFixedIndex c).2 ∧
      ∀ j, (cs.queryFixedIndex c).2.fixedQueries[j]? = some (c, 0)
        ↔ j = (cs.queryFixedIndex c).1) ∧
    (∀ c r, Extends cs (cs.queryInstanceIndex c r).2 ∧
      ∀ j, (cs.queryInstanceIndex c r).2.instanceQueries[j]? = some (c, r)
        ↔ j = (cs.queryInstanceIndex c r).1) := by
  have hi := reach_inv h
  have huniq : ∀ (l : List (ℕ × ℤ)) (q : ℕ × ℤ) (i : ℕ), l.Nodup → l[i]? = some q →
      ∀ j, l[j]? = some q ↔ j = i := by
    intro l q i hn hq j
    constructor
    · intro hj
      obtain ⟨hi', hq'⟩ := List.getElem?_eq_some_iff.1 hq
      obtain ⟨hj', hq''⟩ := List.getElem?_eq_some_iff.1 hj
      exact (List.Nodup.getElem_inj_iff hn).1 (hq''.trans hq'.symm)
    · rintro rfl; exact hq
  refine ⟨?_, ?_, ?_⟩
  · intro c r
    obtain ⟨h1, h2⟩ := queryAdviceIndex_spec cs hi c r
    refine ⟨h1, ?_⟩
    intro i cs' hq
    obtain ⟨a, b, d, _⟩ := h2 i cs' hq
    exact ⟨b, huniq _ _ _ a.advice d⟩
  · intro c
    obtain ⟨a, b, d, _⟩ := queryFixedIndex_spec cs hi c
    exact ⟨b, huniq _ _ _ a.fixed d⟩
  · intro c r
    obtain ⟨a, b, d, _⟩ := queryInstanceIndex_spec cs hi c r
    exact ⟨b, huniq _ _ _ a.inst d⟩

theorem le_listMax {l : List ℕ} {x d : ℕ} (hx : x ∈ l) : x ≤ (listMax? l).getD d := by
  have hfold : ∀ (l : List ℕ) (a : ℕ), a ≤ l.foldl max a ∧ ∀ x ∈ l, x ≤ l.foldl max a := by
    intro l
    induction l with
    | nil => intro a; simp
    | cons b l ih =>
      intro a
      obtain ⟨h1, h2⟩ := ih (max a b)
      rw [List.foldl_cons]
      refine ⟨(le_max_left _ _).trans h1, ?_⟩
      intro x hx
      rcases List.mem_cons.1 hx with rfl | hx
      · exact (le_max_right _ _).trans h1
      · exact h2 x hx
  rcases l with _ | ⟨a, l⟩
  · simp at hx
  · rw [listMax?, Option.getD_some]
    rcases List.mem_cons.1 hx with rfl | hx
    · exact (hfold l _).1
    · exact (hfold l a).2 x hx

/-- The number of blinding factors exceeds by two the number of distinct rotations of every
advice column (one for the opening at `x_3`, one as margin); it is at least 5, and the minimum
number of rows leaves one usable row besides the first and last. -/
theorem blindingFactors_spec {cs : Cs F} (h : Reach cs) :
    (∀ c, cs.distinctRotations c + 2 ≤ cs.blindingFactors) ∧ 5 ≤ cs.blindingFactors ∧
      cs.minimumRows = cs.blindingFactors + 3 := by
  have hi := reach_inv h
  refine ⟨?_, ?_, rfl⟩
  · intro c
    have hcard : cs.distinctRotations c ≤ (cs.adviceQueries.filter fun q => q.1 = c).length := by
      refine (List.toFinset_card_le _).trans ?_
      rw [List.length_map]
    by_cases hc : c < cs.numAdviceQueries.length
    · have := le_listMax (d := 1) (List.getElem_mem hc)
      rw [hi.counts c hc] at this
      rw [Cs.blindingFactors]
      omega
    · have hz : cs.adviceQueries.filter (fun q => q.1 = c) = [] := by
        rw [List.filter_eq_nil_iff]
        intro q hq
        have := hi.adviceLt q hq
        have := hi.count
        simp
        omega
      rw [hz] at hcard
      simp at hcard
      rw [Cs.blindingFactors]
      omega
  · rw [Cs.blindingFactors]
    omega

/-- The cached number of queries of an advice column is its number of distinct rotations. -/
theorem numAdviceQueries_spec {cs : Cs F} (h : Reach cs) (c : ℕ) (hc : c < cs.numAdvice) :
    cs.numAdviceQueries[c]? = some (cs.distinctRotations c) := by
  have hi := reach_inv h
  have hc' : c < cs.numAdviceQueries.length := by rw [hi.count]; exact hc
  rw [List.getElem?_eq_getElem hc', hi.counts c hc']
  congr 1
  rw [Cs.distinctRotations, List.toFinset_card_of_nodup, List.length_map]
  have hf := hi.advice.filter fun q => decide (q.1 = c)
  refine List.Nodup.map_on ?_ hf
  intro x hx y hy hxy
  simp only [List.mem_filter, decide_eq_true_eq] at hx hy
  exact Prod.ext (hx.2.trans hy.2.symm) hxy

/-- Every column of the permutation argument has a registered query at the current row, so
`get_any_query_index` never panics on it and returns that query. -/
theorem permutation_queried {cs : Cs F} (h : Reach cs) (c : Column) (hc : c ∈ cs.permutation) :
    ∃ i, cs.getAnyQueryIndex c = some i ∧ match c.kind with
      | .advice => cs.adviceQueries[i]? = some (c.index, 0)
      | .fixed => cs.fixedQueries[i]? = some (c.index, 0)
      | .inst => cs.instanceQueries[i]? = some (c.index, 0) := by
  have hi := reach_inv h
  have hq := hi.permQueried c hc
  have key : ∀ (l : List (ℕ × ℤ)) (q : ℕ × ℤ), q ∈ l →
      ∃ i, findQuery q 0 l = some i ∧ l[i]? = some q := by
    intro l q hm
    rcases hf : findQuery q 0 l with _ | i
    · exact absurd hm (findQuery_none hf)
    · exact ⟨i, rfl, findQuery_some hf⟩
  rcases c with ⟨_ | _ | _, k⟩
  · exact key _ _ hq
  · exact key _ _ hq
  · exact key _ _ hq

/-- No reachable constraint system has a repeated query, a gate without constraints, an
unregistered query in a gate or lookup, or a simple selector in a lookup. -/
theorem reach_queries {cs : Cs F} (h : Reach cs) :
    cs.adviceQueries.Nodup ∧ cs.fixedQueries.Nodup ∧ cs.instanceQueries.Nodup ∧
      cs.permutation.Nodup ∧
      (∀ g ∈ cs.gates, g ≠ [] ∧ ∀ e ∈ g, cs.Covers e) ∧
      (∀ l ∈ cs.lookups, l.input.length = l.table.length ∧
        (∀ e ∈ l.input, cs.Covers e ∧ ∀ s ∈ e.sels, s.simple = false) ∧
        ∀ e ∈ l.table, cs.Covers e ∧ e.sels = []) := by
  have hi := reach_inv h
  refine ⟨hi.advice, hi.fixed, hi.inst, hi.perm, hi.gates, ?_⟩
  intro l hl
  obtain ⟨h1, h2, h3⟩ := hi.lookups l hl
  refine ⟨h1, fun e he => ⟨(h2 e he).1, ?_⟩, h3⟩
  intro s hs
  have := (h2 e he).2
  by_contra hss
  rw [Bool.not_eq_false] at hss
  rw [(containsSimple_iff e).2 ⟨s, hs, hss⟩] at this
  simp at this

/-- A constraint system with two advice columns, one queried at three rotations, a fixed constants
column and a gate is reachable. -/
example : ∃ cs : Cs ℚ, Reach cs ∧ cs.distinctRotations 0 = 4 ∧ cs.blindingFactors = 6 ∧
    cs.gates.length = 1 ∧ cs.permutation.length = 1 := by
  let cs1 : Cs ℚ := (Cs.adviceColumn (Cs.adviceColumn {}).2).2
  have h1 : Reach cs1 := .adviceColumn (.adviceColumn .init)
  let cs2 : Cs ℚ := cs1.fixedColumn.2
  have h2 : Reach cs2 := .fixedColumn h1
  have h3 := Reach.queryAdvice h2 (c := 0) (r := 0) rfl
  have h4 := Reach.queryAdvice h3 (c := 0) (r := 1) rfl
  have h5 := Reach.queryAdvice h4 (c := 0) (r := -1) rfl
  have h6 := Reach.queryAdvice h5 (c := 0) (r := 2) rfl
  have h7 := Reach.enableConstant h6 (c := 0) rfl
  have h8 := Reach.createGate h7 (polys := [.advice ⟨2, 0, -1⟩]) (by
    intro e he
    simp only [List.mem_singleton] at he
    subst he
    rfl) rfl
  exact ⟨_, h8, by decide +kernel, by decide +kernel, rfl, rfl⟩

end Verif.Cs
