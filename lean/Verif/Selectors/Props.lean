import Verif.Selectors.Lemmas
import Verif.ExprEval.Rows
import Mathlib.Algebra.Order.Ring.Rat

/-!
# C17: selector compression preserves the circuit
-/

namespace Verif.Selectors

open Verif.Expr Verif.ExprEval
open Verif.Cs (Cs Lookup Reach reach_inv Inv Extends le_listMax listMax?)

variable {F : Type*} [Field F] [DecidableEq F]

/-! ### Substitution -/

/-- Replace every selector by the expression of its index. -/
def subst (ρ : ℕ → Expr F) : Expr F → Expr F
  | .constant c => .constant c
  | .selector s => ρ s.index
  | .fixed q => .fixed q
  | .advice q => .advice q
  | .inst q => .inst q
  | .negated a => .negated (subst ρ a)
  | .sum a b => .sum (subst ρ a) (subst ρ b)
  | .product a b => .product (subst ρ a) (subst ρ b)
  | .scaled a f => .scaled (subst ρ a) f

theorem subst_sels (ρ : ℕ → Expr F) (e : Expr F) (h : ∀ s ∈ e.sels, (ρ s.index).sels = []) :
    (subst ρ e).sels = [] := by
  induction e with
  | constant | fixed | advice | inst => rfl
  | selector s => exact h s (by simp [Expr.sels])
  | negated a ih => exact ih h
  | scaled a f ih => exact ih h
  | sum a b iha ihb =>
    simp only [subst, Expr.sels, List.append_eq_nil_iff]
    exact ⟨iha fun s hs => h s (by simp [Expr.sels, hs]),
      ihb fun s hs => h s (by simp [Expr.sels, hs])⟩
  | product a b iha ihb =>
    simp only [subst, Expr.sels, List.append_eq_nil_iff]
    exact ⟨iha fun s hs => h s (by simp [Expr.sels, hs]),
      ihb fun s hs => h s (by simp [Expr.sels, hs])⟩

theorem subst_value (ρ : ℕ → Expr F) (e : Expr F) (v : Env F) :
    (subst ρ e).value id v
      = e.value id ⟨fun s => (ρ s.index).value id v, v.fixed, v.advice, v.inst⟩ := by
  induction e <;> simp_all [subst, Expr.value]

theorem subst_covers (ρ : ℕ → Expr F) (cs cs' : Cs F) (hx : Extends cs cs') (e : Expr F)
    (he : cs.Covers e) (h : ∀ s ∈ e.sels, cs'.Covers (ρ s.index)) : cs'.Covers (subst ρ e) := by
  induction e with
  | constant => trivial
  | fixed q => exact hx.covers (e := .fixed q) he
  | advice q => exact hx.covers (e := .advice q) he
  | inst q => exact hx.covers (e := .inst q) he
  | selector s => exact h s (by simp [Expr.sels])
  | negated a ih => exact ih he h
  | scaled a f ih => exact ih he h
  | sum a b iha ihb =>
    exact ⟨iha he.1 fun s hs => h s (by simp [Expr.sels, hs]),
      ihb he.2 fun s hs => h s (by simp [Expr.sels, hs])⟩
  | product a b iha ihb =>
    exact ⟨iha he.1 fun s hs => h s (by simp [Expr.sels, hs]),
      ihb he.2 fun s hs => h s (by simp [Expr.sels, hs])⟩

theorem subst_degree_eq (ρ : ℕ → Expr F) (e : Expr F)
    (h : ∀ s ∈ e.sels, (ρ s.index).degree = 1) : (subst ρ e).degree = e.degree := by
  induction e with
  | constant | fixed | advice | inst => rfl
  | selector s => exact h s (by simp [Expr.sels])
  | negated a ih => exact ih h
  | scaled a f ih => exact ih h
  | sum a b iha ihb =>
    simp only [subst, Expr.degree]
    rw [iha fun s hs => h s (by simp [Expr.sels, hs]), ihb fun s hs => h s (by simp [Expr.sels, hs])]
  | product a b iha ihb =>
    simp only [subst, Expr.degree]
    rw [iha fun s hs => h s (by simp [Expr.sels, hs]), ihb fun s hs => h s (by simp [Expr.sels, hs])]

/-- One simple selector replaced by an expression of degree `k` adds at most `k - 1`. -/
theorem subst_degree_le (ρ : ℕ → Expr F) (k : ℕ) (hk : 1 ≤ k) (e : Expr F)
    (h1 : (e.sels.filter (·.simple)).length ≤ 1)
    (h2 : ∀ s ∈ e.sels, s.simple = false → (ρ s.index).degree = 1)
    (h3 : ∀ s ∈ e.sels, s.simple = true → (ρ s.index).degree ≤ k) :
    (subst ρ e).degree + 1 ≤ e.degree + k := by
  induction e with
  | constant | fixed | advice | inst => simp only [subst, Expr.degree]; omega
  | selector s =>
    simp only [subst, Expr.degree]
    rcases hs : s.simple with _ | _
    · have := h2 s (by simp [Expr.sels]) hs
      omega
    · have := h3 s (by simp [Expr.sels]) hs
      omega
  | negated a ih => exact ih h1 h2 h3
  | scaled a f ih => exact ih h1 h2 h3
  | sum a b iha ihb =>
    simp only [Expr.sels, List.filter_append, List.length_append] at h1
    have ha := iha (by omega) (fun s hs => h2 s (by simp [Expr.sels, hs]))
      (fun s hs => h3 s (by simp [Expr.sels, hs]))
    have hb := ihb (by omega) (fun s hs => h2 s (by simp [Expr.sels, hs]))
      (fun s hs => h3 s (by simp [Expr.sels, hs]))
    simp only [subst, Expr.degree]
    omega
  | product a b iha ihb =>
    simp only [Expr.sels, List.filter_append, List.length_append] at h1
    simp only [subst, Expr.degree]
    have key : ∀ c : Expr F, (∀ s ∈ c.sels, s ∈ (Expr.product a b).sels) →
        (c.sels.filter (·.simple)).length = 0 → (subst ρ c).degree = c.degree := by
      intro c hc h0
      refine subst_degree_eq ρ c fun s hs => h2 s (hc s hs) ?_
      rw [List.length_eq_zero_iff, List.filter_eq_nil_iff] at h0
      simpa using h0 s hs
    rcases Nat.eq_zero_or_pos (a.sels.filter (·.simple)).length with h0 | h0
    · have ha := key a (by intro s hs; simp [Expr.sels, hs]) h0
      have hb := ihb (by omega) (fun s hs => h2 s (by simp [Expr.sels, hs]))
        (fun s hs => h3 s (by simp [Expr.sels, hs]))
      omega
    · have hb := key b (by intro s hs; simp [Expr.sels, hs]) (by omega)
      have ha := iha (by omega) (fun s hs => h2 s (by simp [Expr.sels, hs]))
        (fun s hs => h3 s (by simp [Expr.sels, hs]))
      omega

/-- `replace_selectors` is that substitution; it panics only on a missing replacement or on a
simple selector where none is allowed. -/
theorem replace_eq (ρ : ℕ → Expr F) (repl : List (Expr F)) (b : Bool) (e : Expr F)
    (hr : ∀ s ∈ e.sels, repl[s.index]? = some (ρ s.index) ∧ (ρ s.index).sels = [])
    (hb : b = true → ∀ s ∈ e.sels, s.simple = false) : replace repl b e = some (subst ρ e) := by
  induction e with
  | constant | fixed | advice | inst => rfl
  | selector s =>
    have hs : s ∈ (Expr.selector s : Expr F).sels := by simp [Expr.sels]
    have : (b && s.simple) = false := by
      rcases b with _ | _
      · rfl
      · simpa using hb rfl s hs
    show (if (b && s.simple) = true then none else repl[s.index]?) = _
    rw [this]
    simpa [subst] using (hr s hs).1
  | negated a ih =>
    have := ih hr hb
    simp only [replace] at this ⊢
    rw [Expr.evaluate, this]
    rfl
  | scaled a f ih =>
    have := ih hr hb
    simp only [replace] at this ⊢
    rw [Expr.evaluate, this]
    rfl
  | sum x y ihx ihy =>
    have hx := ihx (fun s hs => hr s (by simp [Expr.sels, hs]))
      (fun h s hs => hb h s (by simp [Expr.sels, hs]))
    have hy := ihy (fun s hs => hr s (by simp [Expr.sels, hs]))
      (fun h s hs => hb h s (by simp [Expr.sels, hs]))
    simp only [replace] at hx hy ⊢
    rw [Expr.evaluate, hx, hy]
    have sx := no_simple_of_sels (subst_sels ρ x fun s hs => (hr s (by simp [Expr.sels, hs])).2)
    have sy := no_simple_of_sels (subst_sels ρ y fun s hs => (hr s (by simp [Expr.sels, hs])).2)
    show (subst ρ x).add (subst ρ y) = _
    rw [Expr.add, sx, sy]
    rfl
  | product x y ihx ihy =>
    have hx := ihx (fun s hs => hr s (by simp [Expr.sels, hs]))
      (fun h s hs => hb h s (by simp [Expr.sels, hs]))
    have hy := ihy (fun s hs => hr s (by simp [Expr.sels, hs]))
      (fun h s hs => hb h s (by simp [Expr.sels, hs]))
    simp only [replace] at hx hy ⊢
    rw [Expr.evaluate, hx, hy]
    have sx := no_simple_of_sels (subst_sels ρ x fun s hs => (hr s (by simp [Expr.sels, hs])).2)
    show (subst ρ x).mul (subst ρ y) = _
    rw [Expr.mul, sx]
    rfl

/-! ### Tables indexed by selector -/

/-- Filling a table through a list of assignments to distinct slots. -/
theorem fill_spec {α : Type*} (g : Assignment F → Option α) (h : Assignment F → α) :
    ∀ (as : List (Assignment F)) (l : List (Option α)), (as.map (·.selector)).Nodup →
    (∀ a ∈ as, a.selector < l.length ∧ g a = some (h a)) →
    ∃ l', as.foldl (fun acc a => acc.bind fun l : List (Option α) =>
        if a.selector < l.length then (g a).map fun c => l.set a.selector (some c) else none)
        (some l) = some l' ∧ l'.length = l.length ∧
      (∀ a ∈ as, l'[a.selector]? = some (some (h a))) ∧
      ∀ i, i ∉ as.map (·.selector) → l'[i]? = l[i]? := by
  intro as
  induction as with
  | nil => intro l _ _; exact ⟨l, rfl, rfl, by simp, by simp⟩
  | cons a as ih =>
    intro l hnd hlt
    rw [List.map_cons, List.nodup_cons] at hnd
    obtain ⟨l', e1, e2, e3, e4⟩ := ih (l.set a.selector (some (h a))) hnd.2
      (fun b hb => by simpa using hlt b (by simp [hb]))
    obtain ⟨ha, hga⟩ := hlt a (by simp)
    refine ⟨l', ?_, by rw [e2, List.length_set], ?_, ?_⟩
    · rw [List.foldl_cons, Option.bind_some, if_pos ha, hga, Option.map_some]
      exact e1
    · intro b hb
      rw [List.mem_cons] at hb
      rcases hb with rfl | hb
      · rw [e4 _ hnd.1, List.getElem?_set_self ha]
      · exact e3 b hb
    · intro i hi
      rw [List.map_cons, List.mem_cons, not_or] at hi
      rw [e4 i hi.2, List.getElem?_set_ne (Ne.symm hi.1)]

theorem mapM_id_of {α : Type*} (l : List (Option α)) (f : ℕ → α)
    (h : ∀ i < l.length, l[i]? = some (some (f i))) :
    l.mapM id = some ((List.range l.length).map f) := by
  have hl : l = (List.range l.length).map (fun i => some (f i)) := by
    apply List.ext_getElem?
    intro i
    by_cases hi : i < l.length
    · rw [h i hi, List.getElem?_map, List.getElem?_range hi]; rfl
    · rw [List.getElem?_eq_none (by omega), List.getElem?_eq_none (by simpa using hi)]
  have key : ∀ m : List ℕ, (m.map fun i => some (f i)).mapM id = some (m.map f) := by
    intro m
    induction m with
    | nil => rfl
    | cons x m ih =>
      rw [List.map_cons, List.mapM_cons, ih]
      rfl
  conv_lhs => rw [hl]
  rw [key]

theorem table_spec {α : Type*} (g : Assignment F → Option α) (h : Assignment F → α)
    (as : List (Assignment F)) (N : ℕ) (hp : (as.map (·.selector)).Perm (List.range N))
    (hg : ∀ a ∈ as, g a = some (h a)) :
    ∃ t : List α, (as.foldl (fun acc a => acc.bind fun l : List (Option α) =>
        if a.selector < l.length then (g a).map fun c => l.set a.selector (some c) else none)
        (some (List.replicate as.length none))).bind (fun l => l.mapM id) = some t ∧
      t.length = N ∧ ∀ a ∈ as, t[a.selector]? = some (h a) := by
  have hlen : as.length = N := by simpa using hp.length_eq
  have hnd : (as.map (·.selector)).Nodup := hp.nodup_iff.2 List.nodup_range
  have hlt : ∀ a ∈ as, a.selector < N := by
    intro a ha
    have := hp.mem_iff.1 (List.mem_map_of_mem (f := (·.selector)) ha)
    simpa using this
  obtain ⟨l', e1, e2, e3, _⟩ := fill_spec g h as (List.replicate as.length none) hnd
    (fun a ha => ⟨by simpa [hlen] using hlt a ha, hg a ha⟩)
  have hall : ∀ i < N, ∃ a ∈ as, a.selector = i := by
    intro i hi
    have : i ∈ as.map (·.selector) := hp.mem_iff.2 (by simpa using hi)
    simpa using this
  have hl' : l'.length = N := by rw [e2]; simpa using hlen
  rcases Nat.eq_zero_or_pos N with rfl | hN
  · have has : as = [] := List.length_eq_zero_iff.1 hlen
    subst has
    exact ⟨[], rfl, rfl, by simp⟩
  · obtain ⟨a₀, _, _⟩ := hall 0 hN
    haveI : Nonempty (Assignment F) := ⟨a₀⟩
    choose! c hc1 hc2 using hall
    refine ⟨(List.range l'.length).map fun i => h (c i), ?_, by simpa using hl', ?_⟩
    · rw [e1, Option.bind_some, mapM_id_of l' (fun i => h (c i))]
      intro i hi
      have h1 := e3 (c i) (hc1 i (by omega))
      rwa [hc2 i (by omega)] at h1
    · intro a ha
      have hai := hlt a ha
      rw [List.getElem?_map, List.getElem?_range (by omega)]
      simp only [Option.map_some]
      have h1 := e3 a ha
      have h2 := e3 (c a.selector) (hc1 _ hai)
      rw [hc2 _ hai, h1] at h2
      exact congrArg some (Option.some.inj (Option.some.inj h2)).symm

/-! ### The degrees of selectors -/

theorem selectorDegrees_spec (N : ℕ) : ∀ (exprs : List (Expr F)) (ds : List ℕ),
    ds.length = N → (∀ e ∈ exprs, Built e) → (∀ e ∈ exprs, ∀ s ∈ e.sels, s.index < N) →
    ∃ ds', selectorDegrees exprs ds = some ds' ∧ ds'.length = N ∧
      (∀ i, ds.getD i 0 ≤ ds'.getD i 0) ∧
      (∀ e ∈ exprs, ∀ s ∈ e.sels, s.simple = true → e.degree ≤ ds'.getD s.index 0) ∧
      ∀ i, ds'.getD i 0 = ds.getD i 0 ∨ ∃ e ∈ exprs, ∃ s ∈ e.sels, s.simple = true ∧
        s.index = i ∧ ds'.getD i 0 = e.degree := by
  intro exprs
  induction exprs with
  | nil => intro ds h _ _; exact ⟨ds, rfl, h, fun _ => le_refl _, by simp, by simp⟩
  | cons e exprs ih =>
    intro ds hl hb hs
    obtain ⟨r, hr1, hr2⟩ := built_extract (hb e (by simp))
    rcases r with _ | s
    · obtain ⟨ds', e1, e2, e3, e4, e5⟩ := ih ds hl (fun x hx => hb x (by simp [hx]))
        (fun x hx => hs x (by simp [hx]))
      refine ⟨ds', ?_, e2, e3, ?_, ?_⟩
      · rw [selectorDegrees, List.foldl_cons, Option.bind_some, hr1]
        exact e1
      · intro x hx t ht hts
        rw [List.mem_cons] at hx
        rcases hx with rfl | hx
        · exact absurd ((hr2 t).2 ⟨ht, hts⟩) (by simp)
        · exact e4 x hx t ht hts
      · intro i
        rcases e5 i with h | ⟨x, hx, h⟩
        · exact .inl h
        · exact .inr ⟨x, by simp [hx], h⟩
    · have hse := (hr2 s).1 rfl
      have hsi : s.index < ds.length := by rw [hl]; exact hs e (by simp) s hse.1
      have hget : ∀ i, (ds.set s.index (max ds[s.index] e.degree)).getD i 0
          = if i = s.index then max (ds.getD i 0) e.degree else ds.getD i 0 := by
        intro i
        rw [List.getD_eq_getElem?_getD, List.getElem?_set]
        by_cases hi : s.index = i
        · subst hi
          rw [if_pos rfl, if_pos hsi, if_pos rfl, List.getD_eq_getElem _ _ hsi]
          rfl
        · rw [if_neg hi, if_neg (Ne.symm hi), List.getD_eq_getElem?_getD]
      obtain ⟨ds', e1, e2, e3, e4, e5⟩ := ih (ds.set s.index (max ds[s.index] e.degree))
        (by simpa using hl) (fun x hx => hb x (by simp [hx])) (fun x hx => hs x (by simp [hx]))
      refine ⟨ds', ?_, e2, ?_, ?_, ?_⟩
      · rw [selectorDegrees, List.foldl_cons, Option.bind_some, hr1]
        simp only [Option.bind_some]
        rw [List.getElem?_eq_getElem hsi]
        exact e1
      · intro i
        refine le_trans ?_ (e3 i)
        rw [hget]
        split
        · exact le_max_left _ _
        · exact le_refl _
      · intro x hx t ht hts
        rw [List.mem_cons] at hx
        rcases hx with rfl | hx
        · have hst : s = t := by
            have h' := (hr2 t).2 ⟨ht, hts⟩
            simpa using h'
          subst hst
          refine le_trans ?_ (e3 _)
          rw [hget, if_pos rfl]
          exact le_max_right _ _
        · exact e4 x hx t ht hts
      · intro i
        rcases e5 i with h | ⟨x, hx, h⟩
        · rw [hget] at h
          by_cases hi : i = s.index
          · rw [if_pos hi] at h
            rcases le_total e.degree (ds.getD i 0) with hm | hm
            · left; rw [h, max_eq_left hm]
            · right
              exact ⟨e, by simp, s, hse.1, hse.2, hi.symm, by rw [h, max_eq_right hm]⟩
          · rw [if_neg hi] at h
            exact .inl h
        · exact .inr ⟨x, by simp [hx], h⟩

/-! ### Allocation -/

theorem allocate_spec (cs : Cs F) (hi : Inv cs) :
    Inv (allocate cs).2 ∧ Extends cs (allocate cs).2 ∧
      (allocate cs).2.numFixed = cs.numFixed + 1 ∧
      (allocate cs).2.numSelectors = cs.numSelectors ∧
      (allocate cs).2.minimumDegree = cs.minimumDegree ∧
      (allocate cs).2.permutation = cs.permutation ∧
      (allocate cs).2.numAdviceQueries = cs.numAdviceQueries ∧
      (allocate cs).2.adviceQueries = cs.adviceQueries ∧
      (allocate cs).2.instanceQueries = cs.instanceQueries ∧
      (allocate cs).2.numAdvice = cs.numAdvice ∧ (allocate cs).2.numInstance = cs.numInstance ∧
      ∃ i, (allocate cs).1 = .fixed ⟨i, cs.numFixed, 0⟩ ∧
        (allocate cs).2.fixedQueries[i]? = some (cs.numFixed, 0) := by
  have hext : Extends cs cs.fixedColumn.2 :=
    ⟨List.prefix_refl _, List.prefix_refl _, List.prefix_refl _, Nat.le_succ _, le_refl _,
      le_refl _, le_refl _, List.prefix_refl _, List.prefix_refl _⟩
  have hinv : Inv cs.fixedColumn.2 := { hi with
    gates := fun g hg => ⟨(hi.gates g hg).1, fun e he => hext.covers ((hi.gates g hg).2 e he)⟩
    lookups := fun l hl => ⟨(hi.lookups l hl).1,
      fun e he => ⟨hext.covers ((hi.lookups l hl).2.1 e he).1, ((hi.lookups l hl).2.1 e he).2⟩,
      fun e he => ⟨hext.covers ((hi.lookups l hl).2.2 e he).1, ((hi.lookups l hl).2.2 e he).2⟩⟩ }
  obtain ⟨q1, q2, q3, _⟩ := Cs.queryFixedIndex_spec cs.fixedColumn.2 hinv cs.numFixed
  have hal : (allocate cs).2 = (cs.fixedColumn.2.queryFixedIndex cs.numFixed).2 := rfl
  refine ⟨q1, hext.trans q2, ?_, ?_, ?_, ?_, ?_, ?_, ?_, ?_, ?_, _, rfl, q3⟩ <;>
  · rw [hal, Cs.queryFixedIndex]
    split <;> rfl

theorem allocated_spec (cs : Cs F) (hi : Inv cs) (k : ℕ) :
    Inv (allocated cs k) ∧ Extends cs (allocated cs k) ∧
      (allocated cs k).numFixed = cs.numFixed + k ∧
      (allocated cs k).numSelectors = cs.numSelectors ∧
      (allocated cs k).minimumDegree = cs.minimumDegree ∧
      (allocated cs k).permutation = cs.permutation ∧
      (allocated cs k).numAdviceQueries = cs.numAdviceQueries ∧
      (allocated cs k).adviceQueries = cs.adviceQueries ∧
      (allocated cs k).instanceQueries = cs.instanceQueries ∧
      (allocated cs k).numAdvice = cs.numAdvice ∧
      (allocated cs k).numInstance = cs.numInstance := by
  induction k with
  | zero => exact ⟨hi, Extends.refl _, rfl, rfl, rfl, rfl, rfl, rfl, rfl, rfl, rfl⟩
  | succ k ih =>
    obtain ⟨h1, h2, h3, h4, h5, h6, h7, h8, h9, h10, h11⟩ := ih
    obtain ⟨g1, g2, g3, g4, g5, g6, g7, g8, g9, g10, g11, _⟩ := allocate_spec _ h1
    exact ⟨g1, h2.trans g2, by rw [show (allocated cs (k + 1)).numFixed = _ from g3, h3]; rfl,
      g4.trans h4, g5.trans h5, g6.trans h6, g7.trans h7, g8.trans h8, g9.trans h9, g10.trans h10,
      g11.trans h11⟩

theorem allocated_mono (cs : Cs F) (hi : Inv cs) (k m : ℕ) (h : k ≤ m) :
    Extends (allocated cs k) (allocated cs m) := by
  induction m with
  | zero =>
    obtain rfl : k = 0 := by omega
    exact Extends.refl _
  | succ m ih =>
    rcases Nat.lt_or_ge m k with h' | h'
    · obtain rfl : k = m + 1 := by omega
      exact Extends.refl _
    · exact (ih h').trans (allocate_spec _ (allocated_spec cs hi m).1).2.1

/-- The `k`-th allocated query reads the `k`-th new column on the current row. -/
theorem query_spec (cs : Cs F) (hi : Inv cs) (k m : ℕ) (h : k < m) :
    ∃ i, (allocate (allocated cs k)).1 = .fixed ⟨i, cs.numFixed + k, 0⟩ ∧
      (allocated cs m).Covers (allocate (allocated cs k)).1 := by
  obtain ⟨h1, h2, h3, _⟩ := allocated_spec cs hi k
  obtain ⟨i, g1, g2⟩ := (allocate_spec _ h1).2.2.2.2.2.2.2.2.2.2.2
  refine ⟨i, by rw [g1, h3], ?_⟩
  apply (allocated_mono cs hi (k + 1) m h).covers
  rw [g1]
  exact g2

/-! ### The theorem -/

/-- The assignment with the new fixed columns added (`keygen.rs` appends the selector polynomials
to the fixed columns). -/
def extend (t : Cols F) (numFixed : ℕ) (polys : List (List F)) : Cols F :=
  { t with fixed := fun c j => if c < numFixed then t.fixed c j
      else (polys.getD (c - numFixed) []).getD j 0 }

theorem value_congr {cs : Cs F} {e : Expr F} (he : cs.Covers e) {v w : Env F}
    (hs : ∀ s ∈ e.sels, v.sel s = w.sel s)
    (hf : ∀ q : Query, (q.column, q.rotation) ∈ cs.fixedQueries → v.fixed q = w.fixed q)
    (ha : v.advice = w.advice) (hi : v.inst = w.inst) : e.value id v = e.value id w := by
  induction e with
  | constant => rfl
  | selector s => exact hs s (by simp [Expr.sels])
  | fixed q => exact hf q (List.mem_of_getElem? he)
  | advice q => exact congrFun ha q
  | inst q => exact congrFun hi q
  | negated a ih => simp only [Expr.value]; rw [ih he hs]
  | scaled a f ih => simp only [Expr.value]; rw [ih he hs]
  | sum a b iha ihb =>
    simp only [Expr.value]
    rw [iha he.1 fun s h => hs s (by simp [Expr.sels, h]),
      ihb he.2 fun s h => hs s (by simp [Expr.sels, h])]
  | product a b iha ihb =>
    simp only [Expr.value]
    rw [iha he.1 fun s h => hs s (by simp [Expr.sels, h]),
      ihb he.2 fun s h => hs s (by simp [Expr.sels, h])]

theorem sel_index_lt {cs : Cs F} {e : Expr F} (he : cs.Covers e) :
    ∀ s ∈ e.sels, s.index < cs.numSelectors := by
  induction e with
  | constant | fixed | advice | inst => simp [Expr.sels]
  | selector s => intro t ht; simp only [Expr.sels, List.mem_singleton] at ht; subst ht; exact he
  | negated a ih => exact ih he
  | scaled a f ih => exact ih he
  | sum a b iha ihb =>
    intro s hs
    rcases List.mem_append.1 hs with h | h
    · exact iha he.1 s h
    · exact ihb he.2 s h
  | product a b iha ihb =>
    intro s hs
    rcases List.mem_append.1 hs with h | h
    · exact iha he.1 s h
    · exact ihb he.2 s h

theorem degree_pos_of_sels {e : Expr F} {s : Sel} (h : s ∈ e.sels) : 1 ≤ e.degree := by
  induction e with
  | constant | fixed | advice | inst => simp [Expr.sels] at h
  | selector s => exact le_refl _
  | negated a ih => exact ih h
  | scaled a f ih => exact ih h
  | sum a b iha ihb =>
    simp only [Expr.degree]
    rcases List.mem_append.1 h with h | h
    · have := iha h; omega
    · have := ihb h; omega
  | product a b iha ihb =>
    simp only [Expr.degree]
    rcases List.mem_append.1 h with h | h
    · have := iha h; omega
    · have := ihb h; omega

theorem gate_degree_le (cs : Cs F) (g : List (Expr F)) (hg : g ∈ cs.gates) (e : Expr F)
    (he : e ∈ g) : e.degree ≤ cs.degree := by
  have h : e.degree ≤ (listMax? (cs.gates.flatMap fun g => g.map Expr.degree)).getD 0 :=
    le_listMax (List.mem_flatMap.2 ⟨g, hg, List.mem_map_of_mem he⟩)
  rw [Cs.degree]
  omega

theorem listMax_le {l : List ℕ} {d b : ℕ} (h : ∀ x ∈ l, x ≤ b) (hd : d ≤ b) :
    (listMax? l).getD d ≤ b := by
  rcases l with _ | ⟨a, l⟩
  · exact hd
  · simp only [listMax?, Option.getD_some]
    have key : ∀ (l : List ℕ) (a : ℕ), a ≤ b → (∀ x ∈ l, x ≤ b) → l.foldl max a ≤ b := by
      intro l
      induction l with
      | nil => intro a ha _; exact ha
      | cons x l ih =>
        intro a ha hx
        exact ih _ (max_le ha (hx x (by simp))) fun y hy => hx y (by simp [hy])
    exact key l a (h a (by simp)) fun x hx => h x (by simp [hx])

theorem requiredDegree_map (σ : Expr F → Expr F) (l : Lookup F)
    (h : ∀ e ∈ l.input ++ l.table, (σ e).degree = e.degree) :
    Lookup.requiredDegree ⟨l.input.map σ, l.table.map σ⟩ = l.requiredDegree := by
  have key : ∀ (es : List (Expr F)) (d : ℕ), (∀ e ∈ es, (σ e).degree = e.degree) →
      (es.map σ).foldl (fun d e => max d e.degree) d = es.foldl (fun d e => max d e.degree) d := by
    intro es
    induction es with
    | nil => intro d _; rfl
    | cons e es ih =>
      intro d h
      rw [List.map_cons, List.foldl_cons, List.foldl_cons, h e (by simp),
        ih _ fun x hx => h x (by simp [hx])]
  simp only [Lookup.requiredDegree]
  rw [key _ _ fun e he => h e (by simp [he]), key _ _ fun e he => h e (by simp [he])]

/-- What compression does to the expressions of lookups. -/
structure SameExpr (cs cs' : Cs F) (n : ℕ) (act : ℕ → ℕ → Bool) (polys : List (List F))
    (e e' : Expr F) : Prop where
  covers : cs'.Covers e'
  sels : e'.sels = []
  degree : e'.degree = e.degree
  value : ∀ (t : Cols F), ∀ j < n,
    rowVal n (extend t cs.numFixed polys) j e' = e.value id (rowEnv n act t j)

/-- What compression does to the polynomials of gates. -/
structure SameGate (cs cs' : Cs F) (n : ℕ) (act : ℕ → ℕ → Bool) (polys : List (List F))
    (e e' : Expr F) : Prop where
  covers : cs'.Covers e'
  sels : e'.sels = []
  degree : e'.degree ≤ cs.degree
  value : ∀ (t : Cols F), ∀ j < n,
    rowVal n (extend t cs.numFixed polys) j e' = 0 ↔ e.value id (rowEnv n act t j) = 0

theorem mapM_forall₂ {α β : Type*} (f : α → Option β) (g : α → β) (R : α → β → Prop) (l : List α)
    (h : ∀ a ∈ l, f a = some (g a) ∧ R a (g a)) :
    l.mapM f = some (l.map g) ∧ List.Forall₂ R l (l.map g) := by
  induction l with
  | nil => exact ⟨rfl, .nil⟩
  | cons a l ih =>
    obtain ⟨h1, h2⟩ := ih fun b hb => h b (by simp [hb])
    refine ⟨?_, .cons (h a (by simp)).2 h2⟩
    rw [List.mapM_cons, (h a (by simp)).1, h1]
    rfl

/-- C17: selector compression.  For every reachable constraint system whose gates are built with
the expression operators, every activation of its selectors over `n` rows, and a field in which
the integers up to the degree are non-zero: compression does not panic; every gate polynomial
vanishes on a row of the new circuit iff it vanished on that row before; lookup expressions keep
their values; no selector is left; degrees stay within the maximum; and two selectors mapped to one
column are never enabled on the same row. -/
theorem compress_spec (cs : Cs F) (hr : Reach cs) (hb : ∀ g ∈ cs.gates, ∀ e ∈ g, Built e)
    (hcol : ∀ q ∈ cs.fixedQueries, q.1 < cs.numFixed) (selectors : List (List Bool))
    (hlen : selectors.length = cs.numSelectors) (n : ℕ) (hn : ∀ a ∈ selectors, a.length = n)
    (simple : ℕ → Bool)
    (hflagG : ∀ g ∈ cs.gates, ∀ e ∈ g, ∀ s ∈ e.sels, s.simple = simple s.index)
    (hflagL : ∀ l ∈ cs.lookups, ∀ e ∈ l.input, ∀ s ∈ e.sels, s.simple = simple s.index)
    (hchar : ∀ i : ℕ, 0 < i → i ≤ cs.degree → (i : F) ≠ 0) :
    let act := fun i j => (selectors.getD i []).getD j false
    ∃ cs' polys smap, compressSelectors cs selectors = some (cs', polys, smap) ∧
      cs'.numFixed = cs.numFixed + polys.length ∧ (∀ p ∈ polys, p.length = n) ∧
      List.Forall₂ (List.Forall₂ (SameGate cs cs' n act polys)) cs.gates cs'.gates ∧
      List.Forall₂ (fun l l' => List.Forall₂ (SameExpr cs cs' n act polys) l.input l'.input ∧
        List.Forall₂ (SameExpr cs cs' n act polys) l.table l'.table) cs.lookups cs'.lookups ∧
      cs'.degree ≤ cs.degree ∧ smap.length = cs.numSelectors ∧
      (∀ c ∈ smap, cs.numFixed ≤ c ∧ c < cs'.numFixed) ∧
      ∀ i j, i < j → j < cs.numSelectors → smap.getD i 0 = smap.getD j 0 →
        ∀ r, ¬ (act i r = true ∧ act j r = true) := by
  intro act
  have hinv := reach_inv hr
  have hcovG : ∀ e ∈ cs.gates.flatten, cs.Covers e := by
    intro e he
    obtain ⟨g, hg, he⟩ := List.mem_flatten.1 he
    exact (hinv.gates g hg).2 e he
  have hbF : ∀ e ∈ cs.gates.flatten, Built e := by
    intro e he
    obtain ⟨g, hg, he⟩ := List.mem_flatten.1 he
    exact hb g hg e he
  -- degrees
  obtain ⟨ds, d1, d2, _, d4, d5⟩ := selectorDegrees_spec cs.numSelectors cs.gates.flatten
    (List.replicate selectors.length 0) (by simpa using hlen) hbF
    (fun e he => sel_index_lt (hcovG e he))
  have hrep0 : ∀ i, (List.replicate selectors.length 0).getD i 0 = 0 := by
    intro i
    rw [List.getD_eq_getElem?_getD, List.getElem?_replicate]
    split <;> rfl
  have hds : ∀ i, ds.getD i 0 ≤ cs.degree := by
    intro i
    rcases d5 i with h | ⟨e, he, _, _, _, _, h⟩
    · rw [h, hrep0]; exact Nat.zero_le _
    · rw [h]
      obtain ⟨g, hg, he⟩ := List.mem_flatten.1 he
      exact gate_degree_le cs g hg e he
  -- packing
  obtain ⟨desc, hdesc⟩ : ∃ desc : List Desc, desc =
      (selectors.zip ds).mapIdx fun i p => (⟨i, p.1, p.2⟩ : Desc) := ⟨_, rfl⟩
  have hdl : desc.length = cs.numSelectors := by rw [hdesc]; simp [hlen, d2]
  have hdg : ∀ i (h : i < desc.length), desc[i] = ⟨i, selectors.getD i [], ds.getD i 0⟩ := by
    intro i h
    have h1 : i < selectors.length := by omega
    have h2 : i < ds.length := by omega
    simp only [hdesc, List.getElem_mapIdx, List.getElem_zip]
    rw [List.getD_eq_getElem _ _ h1, List.getD_eq_getElem _ _ h2]
  have hqsels : ∀ k, (allocate (allocated cs k)).1.sels = [] := fun k => rfl
  have hqdeg : ∀ k, (allocate (allocated cs k)).1.degree = 1 := fun k => rfl
  have hmemdesc : ∀ s ∈ desc, ∃ i < cs.numSelectors,
      s = ⟨i, selectors.getD i [], ds.getD i 0⟩ := by
    intro s hs
    obtain ⟨i, hi, rfl⟩ := List.mem_iff_getElem.1 hs
    exact ⟨i, by omega, hdg i hi⟩
  obtain ⟨polys, ps, p1, p2, p3⟩ := process_spec (fun k => (allocate (allocated cs k)).1) hqsels
    hqdeg desc n cs.degree
    (by
      intro s hs
      obtain ⟨i, hi, rfl⟩ := hmemdesc s hs
      refine hn _ ?_
      show selectors.getD i [] ∈ selectors
      rw [List.getD_eq_getElem _ _ (by omega)]
      exact List.getElem_mem _)
    (by
      intro s hs
      obtain ⟨i, hi, rfl⟩ := hmemdesc s hs
      exact hds i) hchar
  -- assignments are indexed by selector
  have hfst : ∀ p ∈ ps, ∃ i < cs.numSelectors, p.1 = ⟨i, selectors.getD i [], ds.getD i 0⟩ :=
    fun p hp => hmemdesc p.1 (p3.mem_iff.1 (List.mem_map_of_mem hp))
  have hsel : ps.map (fun p => p.2.selector) = (ps.map Prod.fst).map (·.selector) := by
    rw [List.map_map]
    apply List.map_congr_left
    intro p hp
    exact (p2.sound p hp).sel
  have hperm : ((ps.map Prod.snd).map (·.selector)).Perm (List.range cs.numSelectors) := by
    rw [List.map_map]
    show (ps.map fun p => p.2.selector).Perm _
    rw [hsel]
    refine (p3.map _).trans ?_
    rw [show desc.map (·.selector) = List.range cs.numSelectors from ?_]
    apply List.ext_getElem
    · simp [hdl]
    · intro i h1 h2
      rw [List.getElem_map, hdg, List.getElem_range]
  obtain ⟨smap, m1, m2, m3⟩ := table_spec
    (fun a => (((List.range polys.length).map fun k => (allocated cs k).numFixed)[a.combination]?))
    (fun a => cs.numFixed + a.combination) (ps.map Prod.snd) cs.numSelectors hperm (by
      intro a ha
      obtain ⟨p, hp, rfl⟩ := List.mem_map.1 ha
      rw [List.getElem?_map, List.getElem?_range (p2.sound p hp).lt, Option.map_some,
        (allocated_spec cs hinv _).2.2.1])
  obtain ⟨repl, r1, r2, r3⟩ := table_spec (fun a => some a.expression) (fun a => a.expression)
    (ps.map Prod.snd) cs.numSelectors hperm (fun _ _ => rfl)
  obtain ⟨ρ, hρ⟩ : ∃ ρ : ℕ → Expr F, ρ = fun i => repl.getD i (.constant 0) := ⟨_, rfl⟩
  have hall : ∀ i < cs.numSelectors, ∃ a, (⟨⟨i, selectors.getD i [], ds.getD i 0⟩, a⟩ :
      Desc × Assignment F) ∈ ps ∧ repl[i]? = some (ρ i) ∧ a.expression = ρ i := by
    intro i hi
    have h1 : (⟨i, selectors.getD i [], ds.getD i 0⟩ : Desc) ∈ ps.map Prod.fst := by
      rw [p3.mem_iff, ← hdg i (by omega)]
      exact List.getElem_mem _
    obtain ⟨⟨s, a⟩, hp, hs⟩ := List.mem_map.1 h1
    simp only at hs
    subst hs
    have h2 := r3 a (List.mem_map_of_mem (f := Prod.snd) hp)
    rw [(p2.sound _ hp).sel] at h2
    simp only at h2
    have h3 : ρ i = a.expression := by
      rw [hρ]
      simp only [List.getD_eq_getElem?_getD, h2, Option.getD_some]
    exact ⟨a, hp, by rw [h2, h3], h3.symm⟩
  have hnewcov : ∀ i < cs.numSelectors, (allocated cs polys.length).Covers (ρ i) ∧
      (ρ i).sels = [] ∧ 1 ≤ (ρ i).degree ∧
      (0 < ds.getD i 0 → (ρ i).degree + (ds.getD i 0 - 1) ≤ cs.degree) ∧
      (ds.getD i 0 = 0 → (ρ i).degree = 1) ∧
      ∀ (t : Cols F), ∀ j < n,
        (rowVal n (extend t cs.numFixed polys) j (ρ i) ≠ 0 ↔ act i j = true) ∧
        (ds.getD i 0 = 0 →
          rowVal n (extend t cs.numFixed polys) j (ρ i) = if act i j then 1 else 0) := by
    intro i hi
    obtain ⟨a, ha, _, he⟩ := hall i hi
    have hs := p2.sound _ ha
    obtain ⟨qi, q1, q2⟩ := query_spec cs hinv a.combination polys.length hs.lt
    rw [← he]
    refine ⟨hs.covers _ q2, hs.sels, hs.degPos, hs.deg, hs.deg0, ?_⟩
    intro t j hj
    obtain ⟨col, c1, c2, c3⟩ := hs.col
    refine c3 j hj _ ?_
    simp only [q1, Expr.value, extend, rotRow_zero hj]
    rw [if_neg (by omega), Nat.add_sub_cancel_left]
    simp only [List.getD_eq_getElem?_getD, c1, Option.getD_some]
  have hextn := allocated_spec cs hinv polys.length
  -- selectors that are not simple, or occur in no gate, have degree 0
  have hzero : ∀ s : Sel, s.simple = false → s.simple = simple s.index →
      ds.getD s.index 0 = 0 := by
    intro s h1 h2
    rcases d5 s.index with h | ⟨e, he, t, ht, hts, hti, _⟩
    · rw [h, hrep0]
    · obtain ⟨g, hg, he⟩ := List.mem_flatten.1 he
      have := hflagG g hg e he t ht
      rw [hts, hti, ← h2, h1] at this
      simp at this
  -- values of the substituted expressions
  have hval : ∀ (e : Expr F), cs.Covers e → ∀ (t : Cols F) (j : ℕ),
      rowVal n (extend t cs.numFixed polys) j (subst ρ e) = e.value id
        ⟨fun s => rowVal n (extend t cs.numFixed polys) j (ρ s.index),
          (rowEnv n act t j).fixed, (rowEnv n act t j).advice, (rowEnv n act t j).inst⟩ := by
    intro e he t j
    rw [rowVal, subst_value]
    refine value_congr he (fun _ _ => rfl) ?_ rfl rfl
    intro q hq
    simp only [rowEnv, extend]
    rw [if_pos (hcol _ hq)]
  -- gates
  have hgate : ∀ g ∈ cs.gates, ∀ e ∈ g, replace repl false e = some (subst ρ e) ∧
      ∀ cs' : Cs F, (∀ e, (allocated cs polys.length).Covers e → cs'.Covers e) →
         SameGate cs cs' n act polys e (subst ρ e) := by
    intro g hg e he
    have hcov := (hinv.gates g hg).2 e he
    have hlt := sel_index_lt hcov
    have hbe := hb g hg e he
    refine ⟨replace_eq ρ repl false e (fun s hs => ?_) (by simp), fun cs' hx => ⟨?_, ?_, ?_, ?_⟩⟩
    · obtain ⟨a, _, h2, _⟩ := hall s.index (hlt s hs)
      exact ⟨h2, (hnewcov s.index (hlt s hs)).2.1⟩
    · exact hx _ (subst_covers ρ cs _ hextn.2.1 e hcov
        fun s hs => (hnewcov s.index (hlt s hs)).1)
    · exact subst_sels ρ e fun s hs => (hnewcov s.index (hlt s hs)).2.1
    · -- degree
      have hcnt := (built_spec (R := F) id hbe).1
      have hnons : ∀ s ∈ e.sels, s.simple = false → (ρ s.index).degree = 1 := fun s hs h =>
        (hnewcov s.index (hlt s hs)).2.2.2.2.1 (hzero s h (hflagG g hg e he s hs))
      by_cases hex : ∃ s ∈ e.sels, s.simple = true
      · obtain ⟨s, hs, hss⟩ := hex
        obtain ⟨_, _, n3, n4, _, _⟩ := hnewcov s.index (hlt s hs)
        have hde := d4 e (List.mem_flatten.2 ⟨g, hg, he⟩) s hs hss
        have hpos := degree_pos_of_sels hs
        have h4 := n4 (by omega)
        have huniq : ∀ t ∈ e.sels, t.simple = true → t = s := by
          intro t ht hts
          obtain ⟨r, _, hr2⟩ := built_extract hbe
          have e1 := (hr2 s).2 ⟨hs, hss⟩
          have e2 := (hr2 t).2 ⟨ht, hts⟩
          rw [e1] at e2
          exact (Option.some.inj e2).symm
        have := subst_degree_le ρ (ρ s.index).degree n3 e hcnt hnons
          (fun t ht hts => by rw [huniq t ht hts])
        omega
      · push Not at hex
        rw [subst_degree_eq ρ e fun s hs => hnons s hs (by simpa using hex s hs)]
        exact gate_degree_le cs g hg e he
    · -- value
      intro t j hj
      rw [hval e hcov t j]
      have hnons : ∀ s ∈ e.sels, s.simple = false →
          rowVal n (extend t cs.numFixed polys) j (ρ s.index) = if act s.index j then 1 else 0 :=
        fun s hs h => ((hnewcov s.index (hlt s hs)).2.2.2.2.2 t j hj).2
          (hzero s h (hflagG g hg e he s hs))
      by_cases hex : ∃ s ∈ e.sels, s.simple = true
      · obtain ⟨s, hs, hss⟩ := hex
        obtain ⟨f, f1, f2⟩ := (built_spec (R := F) id hbe).2 s hs hss
        -- complete the two environments so that they agree on all non-simple selectors
        obtain ⟨w, hw⟩ : ∃ w : Env F, w = ⟨fun s => if s.simple = true ∨ s ∈ e.sels then
            rowVal n (extend t cs.numFixed polys) j (ρ s.index) else (rowEnv n act t j).sel s,
          (rowEnv n act t j).fixed, (rowEnv n act t j).advice, (rowEnv n act t j).inst⟩ := ⟨_, rfl⟩
        have hw1 : e.value id ⟨fun s => rowVal n (extend t cs.numFixed polys) j (ρ s.index),
            (rowEnv n act t j).fixed, (rowEnv n act t j).advice, (rowEnv n act t j).inst⟩
            = e.value id w := by
          refine value_congr hcov (fun s hs => ?_) (fun _ _ => by rw [hw]) (by rw [hw]) (by rw [hw])
          rw [hw]
          simp only [hs, or_true, if_true]
        rw [hw1, f1, f1 (rowEnv n act t j)]
        have hff : f w = f (rowEnv n act t j) := by
          refine f2 _ _ ?_ (by rw [hw]) (by rw [hw]) (by rw [hw])
          intro s hs'
          rw [hw]
          simp only
          by_cases hm : s ∈ e.sels
          · rw [if_pos (Or.inr hm), hnons s hm hs']
            rfl
          · rw [if_neg (by simp [hs', hm])]
        have hws : w.sel s = rowVal n (extend t cs.numFixed polys) j (ρ s.index) := by
          rw [hw]; simp [hss]
        have hiff := ((hnewcov s.index (hlt s hs)).2.2.2.2.2 t j hj).1
        rw [hff, hws, mul_eq_zero, mul_eq_zero]
        have hold : (rowEnv n act t j).sel s = 0 ↔ act s.index j = false := by
          simp only [rowEnv]
          cases act s.index j <;> simp
        rw [hold]
        have : rowVal n (extend t cs.numFixed polys) j (ρ s.index) = 0 ↔ act s.index j = false := by
          rw [← not_iff_not, Bool.not_eq_false]
          exact hiff
        rw [this]
      · push Not at hex
        have : e.value id ⟨fun s => rowVal n (extend t cs.numFixed polys) j (ρ s.index),
            (rowEnv n act t j).fixed, (rowEnv n act t j).advice, (rowEnv n act t j).inst⟩
            = e.value id (rowEnv n act t j) := by
          refine value_congr hcov (fun s hs => ?_) (fun _ _ => rfl) rfl rfl
          simp only
          rw [hnons s hs (by simpa using hex s hs)]
          rfl
        rw [this]
  -- lookups
  have hexpr : ∀ e : Expr F, cs.Covers e → (∀ s ∈ e.sels, s.simple = false ∧
      s.simple = simple s.index) → replace repl true e = some (subst ρ e) ∧
      ∀ cs' : Cs F, (∀ e, (allocated cs polys.length).Covers e → cs'.Covers e) →
         SameExpr cs cs' n act polys e (subst ρ e) := by
    intro e hcov hs
    have hlt := sel_index_lt hcov
    refine ⟨replace_eq ρ repl true e (fun s hs => ?_) (fun _ s h => (hs s h).1),
      fun cs' hx => ⟨?_, ?_, ?_, ?_⟩⟩
    · obtain ⟨a, _, h2, _⟩ := hall s.index (hlt s hs)
      exact ⟨h2, (hnewcov s.index (hlt s hs)).2.1⟩
    · exact hx _ (subst_covers ρ cs _ hextn.2.1 e hcov
        fun s hs => (hnewcov s.index (hlt s hs)).1)
    · exact subst_sels ρ e fun s hs => (hnewcov s.index (hlt s hs)).2.1
    · exact subst_degree_eq ρ e fun s h =>
        (hnewcov s.index (hlt s h)).2.2.2.2.1 (hzero s (hs s h).1 (hs s h).2)
    · intro t j hj
      rw [hval e hcov t j]
      refine value_congr hcov (fun s h => ?_) (fun _ _ => rfl) rfl rfl
      simp only
      rw [((hnewcov s.index (hlt s h)).2.2.2.2.2 t j hj).2 (hzero s (hs s h).1 (hs s h).2)]
      rfl
  have hnosimple : ∀ e : Expr F, e.containsSimple = false → ∀ s ∈ e.sels, s.simple = false := by
    intro e he s hs
    by_contra hss
    rw [Bool.not_eq_false] at hss
    rw [(containsSimple_iff e).2 ⟨s, hs, hss⟩] at he
    simp at he
  obtain ⟨cs', hcs'⟩ : ∃ cs' : Cs F, cs' = { allocated cs polys.length with
    gates := cs.gates.map fun g => g.map (subst ρ),
    lookups := cs.lookups.map fun l => ⟨l.input.map (subst ρ), l.table.map (subst ρ)⟩ } := ⟨_, rfl⟩
  have hcov' : ∀ e : Expr F, (allocated cs polys.length).Covers e → cs'.Covers e := by
    intro e he
    induction e with
    | constant => trivial
    | selector s => rw [hcs']; exact he
    | fixed q => rw [hcs']; exact he
    | advice q => rw [hcs']; exact he
    | inst q => rw [hcs']; exact he
    | negated a ih => exact ih he
    | scaled a f ih => exact ih he
    | sum a b iha ihb => exact ⟨iha he.1, ihb he.2⟩
    | product a b iha ihb => exact ⟨iha he.1, ihb he.2⟩
  have hgates := mapM_forall₂ (fun g : List (Expr F) => g.mapM (replace repl false))
    (fun g => g.map (subst ρ)) (List.Forall₂ (SameGate cs cs' n act polys)) cs.gates
    (fun g hg => mapM_forall₂ _ _ _ g fun e he =>
      ⟨(hgate g hg e he).1, (hgate g hg e he).2 cs' hcov'⟩)
  have hin : ∀ l ∈ cs.lookups, ∀ e ∈ l.input, replace repl true e = some (subst ρ e) ∧
      SameExpr cs cs' n act polys e (subst ρ e) := by
    intro l hl e he
    have h1 := (hinv.lookups l hl).2.1 e he
    have h2 := hexpr e h1.1 fun s hs => ⟨hnosimple e h1.2 s hs, hflagL l hl e he s hs⟩
    exact ⟨h2.1, h2.2 cs' hcov'⟩
  have htab : ∀ l ∈ cs.lookups, ∀ e ∈ l.table, replace repl true e = some (subst ρ e) ∧
      SameExpr cs cs' n act polys e (subst ρ e) := by
    intro l hl e he
    have h1 := (hinv.lookups l hl).2.2 e he
    have h2 := hexpr e h1.1 fun s hs => by rw [h1.2] at hs; simp at hs
    exact ⟨h2.1, h2.2 cs' hcov'⟩
  have hlook := mapM_forall₂ (fun l : Lookup F => (l.input.mapM (replace repl true)).bind
      fun input => (l.table.mapM (replace repl true)).map fun table => (⟨input, table⟩ : Lookup F))
    (fun l => ⟨l.input.map (subst ρ), l.table.map (subst ρ)⟩)
    (fun l l' => List.Forall₂ (SameExpr cs cs' n act polys) l.input l'.input ∧
        List.Forall₂ (SameExpr cs cs' n act polys) l.table l'.table) cs.lookups
    (fun l hl => by
      obtain ⟨a1, a2⟩ := mapM_forall₂ _ _ _ l.input (hin l hl)
      obtain ⟨b1, b2⟩ := mapM_forall₂ _ _ _ l.table (htab l hl)
      exact ⟨by rw [a1, b1]; rfl, a2, b2⟩)
  refine ⟨cs', polys, smap, ?_, ?_, p2.cols, ?_, ?_, ?_, m2, ?_, ?_⟩
  · rw [compressSelectors, if_pos hlen, d1, Option.bind_some, ← hdesc, p1, Option.bind_some]
    simp only
    rw [show selectorMap (ps.map Prod.snd) _ = some smap from m1, Option.bind_some,
      show replacements (ps.map Prod.snd) = some repl from r1, Option.bind_some, hgates.1,
      Option.bind_some, hlook.1, Option.map_some, hcs']
  · rw [hcs']; exact hextn.2.2.1
  · have := hgates.2
    rw [hcs'] at this ⊢
    exact this
  · have := hlook.2
    rw [hcs'] at this ⊢
    exact this
  · -- degree
    have hreq : (cs'.lookups.map Lookup.requiredDegree) = cs.lookups.map Lookup.requiredDegree := by
      rw [hcs']
      simp only [List.map_map]
      apply List.map_congr_left
      intro l hl
      apply requiredDegree_map
      intro e he
      rcases List.mem_append.1 he with he | he
      · exact (hin l hl e he).2.degree
      · exact (htab l hl e he).2.degree
    have hmin : cs'.minimumDegree = cs.minimumDegree := by rw [hcs']; exact hextn.2.2.2.2.1
    have hgd : (listMax? (cs'.gates.flatMap fun g => g.map Expr.degree)).getD 0 ≤ cs.degree := by
      refine listMax_le ?_ (Nat.zero_le _)
      intro x hx
      obtain ⟨g', hg', hx⟩ := List.mem_flatMap.1 hx
      obtain ⟨e', he', rfl⟩ := List.mem_map.1 hx
      rw [hcs'] at hg'
      obtain ⟨g, hg, rfl⟩ := List.mem_map.1 hg'
      obtain ⟨e, he, rfl⟩ := List.mem_map.1 he'
      exact ((hgate g hg e he).2 cs' hcov').degree
    have hother : cs.degree = max (max (max Cs.permRequiredDegree
        ((listMax? (cs.lookups.map Lookup.requiredDegree)).getD 1))
        ((listMax? (cs.gates.flatMap fun g => g.map Expr.degree)).getD 0))
        (cs.minimumDegree.getD 1) := rfl
    have hother' : cs'.degree = max (max (max Cs.permRequiredDegree
        ((listMax? (cs'.lookups.map Lookup.requiredDegree)).getD 1))
        ((listMax? (cs'.gates.flatMap fun g => g.map Expr.degree)).getD 0))
        (cs'.minimumDegree.getD 1) := rfl
    rw [hreq, hmin] at hother'
    omega
  · intro c hc
    obtain ⟨i, hi, rfl⟩ := List.mem_iff_getElem.1 hc
    obtain ⟨a, ha, _, _⟩ := hall i (by omega)
    have h1 := m3 a (List.mem_map_of_mem (f := Prod.snd) ha)
    rw [(p2.sound _ ha).sel] at h1
    simp only at h1
    rw [List.getElem?_eq_getElem hi] at h1
    have h2 : a.combination < polys.length := (p2.sound _ ha).lt
    have h3 : cs'.numFixed = cs.numFixed + polys.length := by rw [hcs']; exact hextn.2.2.1
    have h4 := Option.some.inj h1
    omega
  · intro i j hij hj heq r hact
    obtain ⟨a, ha, _, _⟩ := hall i (by omega)
    obtain ⟨b, hb', _, _⟩ := hall j hj
    have h1 := m3 a (List.mem_map_of_mem (f := Prod.snd) ha)
    have h2 := m3 b (List.mem_map_of_mem (f := Prod.snd) hb')
    rw [(p2.sound _ ha).sel] at h1
    rw [(p2.sound _ hb').sel] at h2
    simp only at h1 h2
    rw [List.getD_eq_getElem?_getD, List.getD_eq_getElem?_getD, h1, h2] at heq
    have hcomb : a.combination = b.combination := by simpa using heq
    have hne : ((⟨⟨i, selectors.getD i [], ds.getD i 0⟩, a⟩ : Desc × Assignment F))
        ≠ ⟨⟨j, selectors.getD j [], ds.getD j 0⟩, b⟩ := by
      intro h
      have := congrArg (fun p => p.1.selector) h
      simp only at this
      omega
    haveI : Std.Symm fun p q : Desc × Assignment F =>
        p.2.combination = q.2.combination → Disjoint p.1 q.1 :=
      ⟨fun p q h he r hr => h he.symm r ⟨hr.2, hr.1⟩⟩
    exact p2.disj.forall ha hb' hne hcomb r hact

/-! ### Non-vacuity -/

/-- Two simple selectors guarding two gates on one advice column. -/
def exCs : Cs ℚ :=
  let cs := (((({} : Cs ℚ).adviceColumn.2).selector true).2.selector true).2
  let cs := { cs with adviceQueries := [(0, 0)], numAdviceQueries := [1] }
  let cs := { cs with gates := [[.product (.selector ⟨0, true⟩) (.advice ⟨0, 0, 0⟩)]] }
  { cs with gates := cs.gates ++ [[.product (.selector ⟨1, true⟩)
      (.sum (.advice ⟨0, 0, 0⟩) (.negated (.constant 1)))]] }

theorem exReach : Reach exCs := by
  have h1 : Reach (((({} : Cs ℚ).adviceColumn.2).selector true).2.selector true).2 :=
    .selector _ (.selector _ (.adviceColumn .init))
  have h2 := Reach.queryAdvice (c := 0) (r := 0) h1 rfl
  have h3 := Reach.createGate (polys := [.product (.selector ⟨0, true⟩) (.advice ⟨0, 0, 0⟩)]) h2
    (by
      intro e he
      rw [List.mem_singleton] at he
      subst he
      exact ⟨by show 0 < 2; omega, rfl⟩) rfl
  exact Reach.createGate (polys := [.product (.selector ⟨1, true⟩)
      (.sum (.advice ⟨0, 0, 0⟩) (.negated (.constant 1)))]) h3
    (by
      intro e he
      rw [List.mem_singleton] at he
      subst he
      exact ⟨by show 1 < 2; omega, rfl, trivial⟩) rfl

/-- The hypotheses of `compress_spec` hold of it with any activations; with disjoint ones both
selectors share one new column. -/
example : (compressSelectors exCs [[true, false, false], [false, false, true]]).map
    (fun r => (r.1.gates, r.2.1, r.2.2))
    = some ([[.product (.product (.fixed ⟨0, 0, 0⟩)
            (.sum (.constant 2) (.negated (.fixed ⟨0, 0, 0⟩)))) (.advice ⟨0, 0, 0⟩)],
          [.product (.product (.fixed ⟨0, 0, 0⟩)
            (.sum (.constant 1) (.negated (.fixed ⟨0, 0, 0⟩))))
            (.sum (.advice ⟨0, 0, 0⟩) (.negated (.constant 1)))]],
      [[1, 0, 2]], [0, 0]) := by
  decide +kernel

example (a b : List Bool) (h : a.length = b.length) :
    ∃ cs' polys smap, compressSelectors exCs [a, b] = some (cs', polys, smap) ∧
      cs'.degree ≤ exCs.degree := by
  obtain ⟨cs', polys, smap, h1, _, _, _, _, h2, _⟩ := compress_spec exCs exReach
    (by
      have e1 : Built (.product (.selector ⟨0, true⟩) (.advice ⟨0, 0, 0⟩) : Expr ℚ) :=
        .mul (.selector ⟨0, true⟩) (.advice ⟨0, 0, 0⟩) (by decide +kernel)
      have e2 : Built (.product (.selector ⟨1, true⟩)
          (.sum (.advice ⟨0, 0, 0⟩) (.negated (.constant 1))) : Expr ℚ) :=
        .mul (.selector ⟨1, true⟩) (.add (.advice ⟨0, 0, 0⟩) (.neg (.constant 1)) rfl)
          (by decide +kernel)
      intro g hg e he
      simp only [exCs, List.cons_append, List.nil_append, List.mem_cons, List.not_mem_nil,
        or_false] at hg
      rcases hg with rfl | rfl <;>
      · rw [List.mem_singleton] at he
        subst he
        assumption)
    (by intro q hq; exact absurd hq (by simp [exCs, Cs.adviceColumn, Cs.selector]))
    [a, b] rfl b.length (by simp [h]) (fun _ => true)
    (by
      intro g hg e he s hs
      simp only [exCs, List.cons_append, List.nil_append, List.mem_cons, List.not_mem_nil,
        or_false] at hg
      rcases hg with rfl | rfl <;>
      · rw [List.mem_singleton] at he
        subst he
        simp only [Expr.sels, List.append_nil, List.mem_singleton] at hs
        subst hs
        rfl)
    (by intro l hl; exact absurd hl (by simp [exCs, Cs.adviceColumn, Cs.selector]))
    (by intro i hi _; exact_mod_cast hi.ne')
  exact ⟨cs', polys, smap, h1, h2⟩

end Verif.Selectors
