import Verif.Selectors.Model
import Verif.Cs.Props
import Mathlib.Algebra.BigOperators.Group.Finset.Basic
import Mathlib.Algebra.BigOperators.Ring.Finset
import Mathlib.Data.List.GetD
import Mathlib.Tactic.Ring
import Mathlib.Tactic.LinearCombination

/-!
# Selector compression: the packing
-/

namespace Verif.Selectors

open Verif.Expr
open Verif.Cs (Cs)
open Finset (range)

variable {F : Type*} [Field F] [DecidableEq F]

/-- Selector `s` is enabled on row `r`. -/
def Desc.active (s : Desc) (r : ℕ) : Bool := s.activations.getD r false

/-- No row enables both. -/
def Disjoint (s t : Desc) : Prop := ∀ r, ¬ (s.active r = true ∧ t.active r = true)

theorem conflict_iff (a b : List Bool) :
    conflict a b = false ↔ ∀ r, ¬ (a.getD r false = true ∧ b.getD r false = true) := by
  induction a generalizing b with
  | nil => simp [conflict]
  | cons x a ih =>
    rcases b with _ | ⟨y, b⟩
    · simp [conflict]
    · have : conflict (x :: a) (y :: b) = ((x && y) || conflict a b) := rfl
      rw [this, Bool.or_eq_false_iff, ih]
      constructor
      · rintro ⟨h1, h2⟩ r
        rcases r with _ | r
        · simp only [List.getD_cons_zero]
          rintro ⟨rfl, rfl⟩
          simp at h1
        · simpa using h2 r
      · intro h
        refine ⟨?_, fun r => by simpa using h (r + 1)⟩
        have := h 0
        simp only [List.getD_cons_zero, not_and] at this
        cases x <;> cases y <;> simp_all

theorem no_simple_of_sels {e : Expr F} (h : e.sels = []) : e.containsSimple = false := by
  rw [not_containsSimple_iff, h]; rfl

/-! ### The substituted expression -/

theorem rootsLoop_spec (query : Expr F) (hq : query.sels = []) (a : F) :
    ∀ (k : ℕ) (root : F) (e : Expr F), e.sels = [] →
    ∃ e', rootsLoop query a k root e = some e' ∧ e'.sels = [] ∧
      (∀ v, e'.value id v = e.value id v * ∏ i ∈ range k,
        if root + (i : F) ≠ a then root + (i : F) - query.value id v else 1) ∧
      e'.degree = e.degree + ((range k).filter fun i : ℕ => root + (i : F) ≠ a).card * query.degree ∧
      ∀ cs : Cs F, cs.Covers query → cs.Covers e → cs.Covers e' := by
  intro k
  induction k with
  | zero => intro root e he; exact ⟨e, rfl, he, by simp, by simp, fun _ _ h => h⟩
  | succ k ih =>
    intro root e he
    have hprod : ∀ v : Env F, (∏ i ∈ range (k + 1),
        if root + (i : F) ≠ a then root + (i : F) - query.value id v else 1)
        = (if root ≠ a then root - query.value id v else 1) * ∏ i ∈ range k,
          if root + 1 + (i : F) ≠ a then root + 1 + (i : F) - query.value id v else 1 := by
      intro v
      rw [Finset.prod_range_succ']
      simp only [Nat.cast_zero, add_zero, Nat.cast_add, Nat.cast_one]
      rw [mul_comm]
      congr 1
      refine Finset.prod_congr rfl fun i _ => ?_
      rw [show root + ((i : F) + 1) = root + 1 + i by ring]
    have hcard : ((range (k + 1)).filter fun i : ℕ => root + (i : F) ≠ a).card
        = (if root ≠ a then 1 else 0)
          + ((range k).filter fun i : ℕ => root + 1 + (i : F) ≠ a).card := by
      rw [Finset.card_filter, Finset.card_filter, Finset.sum_range_succ']
      simp only [Nat.cast_zero, add_zero, Nat.cast_add, Nat.cast_one]
      rw [add_comm]
      congr 1
      refine Finset.sum_congr rfl fun i _ => ?_
      rw [show root + ((i : F) + 1) = root + 1 + i by ring]
    by_cases hr : root = a
    · obtain ⟨e', h1, h2, h3, h4, h5⟩ := ih (root + 1) e he
      refine ⟨e', ?_, h2, ?_, ?_, h5⟩
      · rw [rootsLoop, if_neg (by simpa using hr), Option.bind_some, h1]
      · intro v; rw [h3, hprod, if_neg (by simpa using hr), one_mul]
      · rw [h4, hcard, if_neg (by simpa using hr), zero_add]
    · have hsub : (Expr.constant root).sub query = some (.sum (.constant root) query.neg) := by
        rw [Expr.sub, no_simple_of_sels hq,
          no_simple_of_sels (show (Expr.constant root).sels = [] from rfl)]; rfl
      have hsels : (Expr.sum (.constant root) query.neg).sels = [] := by
        simp [Expr.sels, Expr.neg, hq]
      have hmul : e.mul (.sum (.constant root) query.neg)
          = some (.product e (.sum (.constant root) query.neg)) := by
        rw [Expr.mul, no_simple_of_sels hsels, no_simple_of_sels he]; rfl
      obtain ⟨e', h1, h2, h3, h4, h5⟩ := ih (root + 1)
        (.product e (.sum (.constant root) query.neg)) (by
          rw [Expr.sels, he, hsels]; rfl)
      refine ⟨e', ?_, h2, ?_, ?_, ?_⟩
      · rw [rootsLoop, if_pos hr, hsub, Option.bind_some, hmul, Option.bind_some, h1]
      · intro v
        rw [h3, hprod, if_pos hr]
        simp only [Expr.value, Expr.neg, id]
        ring
      · rw [h4, hcard, if_pos hr]
        simp only [Expr.degree, Expr.neg]
        rw [Nat.zero_max]
        ring
      · intro cs hcq hce
        exact h5 cs hcq ⟨hce, trivial, hcq⟩

/-- Small positive integers are distinct in the field. -/
theorem cast_inj_of {D : ℕ} (hchar : ∀ i : ℕ, 0 < i → i ≤ D → (i : F) ≠ 0) {i j : ℕ}
    (hi : i ≤ D) (hj : j ≤ D) (h : (i : F) = j) : i = j := by
  by_contra hne
  rcases Nat.lt_or_gt_of_ne hne with h' | h'
  · apply hchar (j - i) (by omega) (by omega)
    rw [Nat.cast_sub h'.le, h, sub_self]
  · apply hchar (i - j) (by omega) (by omega)
    rw [Nat.cast_sub h'.le, h, sub_self]

/-- The expression of the member with root `k + 1` among `len`: non-zero exactly at that root
among `0, …, len`, and of degree `len`. -/
theorem root_expr (query : Expr F) (hq : query.sels = []) (hd : query.degree = 1) (len k : ℕ)
    (hk : k < len) (hchar : ∀ i : ℕ, 0 < i → i ≤ len → (i : F) ≠ 0) :
    ∃ e, rootsLoop query ((k + 1 : ℕ) : F) len 1 query = some e ∧ e.sels = [] ∧
      (∀ v, ∀ j ≤ len, query.value id v = (j : F) → (e.value id v ≠ 0 ↔ j = k + 1)) ∧
      e.degree = len ∧ ∀ cs : Cs F, cs.Covers query → cs.Covers e := by
  obtain ⟨e, h1, h2, h3, h4, h5⟩ := rootsLoop_spec query hq ((k + 1 : ℕ) : F) len 1 query hq
  have hne : ∀ i < len, (1 + (i : F) ≠ ((k + 1 : ℕ) : F) ↔ i ≠ k) := by
    intro i hi
    rw [not_iff_not]
    constructor
    · intro h
      have := cast_inj_of hchar (i := i + 1) (j := k + 1) (by omega) (by omega)
        (by rw [← h]; push_cast; ring)
      omega
    · rintro rfl; push_cast; ring
  refine ⟨e, h1, h2, ?_, ?_, fun cs hc => h5 cs hc hc⟩
  · intro v j hj hv
    rw [h3, hv]
    constructor
    · intro hnz
      by_contra hjk
      apply hnz
      rcases Nat.eq_zero_or_pos j with rfl | hj0
      · simp
      · rw [Finset.prod_eq_zero (i := j - 1) (Finset.mem_range.2 (by omega)), mul_zero]
        rw [if_pos ((hne (j - 1) (by omega)).2 (by omega)), Nat.cast_sub hj0]
        push_cast
        ring
    · rintro rfl
      refine mul_ne_zero (hchar _ (by omega) hj) (Finset.prod_ne_zero_iff.2 fun i hi => ?_)
      have hi' := Finset.mem_range.1 hi
      split
      · next h => exact sub_ne_zero.2 h
      · exact one_ne_zero
  · rw [h4, hd, mul_one]
    have : ((range len).filter fun i : ℕ => 1 + (i : F) ≠ ((k + 1 : ℕ) : F))
        = (range len).erase k := by
      ext i
      simp only [Finset.mem_filter, Finset.mem_range, Finset.mem_erase]
      constructor
      · rintro ⟨a, b⟩; exact ⟨(hne i a).1 b, a⟩
      · rintro ⟨a, b⟩; exact ⟨b, (hne i b).2 a⟩
    rw [this, Finset.card_erase_of_mem (Finset.mem_range.2 hk), Finset.card_range]
    omega

/-! ### The column of a combination -/

theorem mark_spec (root : F) : ∀ (col : List F) (bs : List Bool), col.length = bs.length →
    (mark root col bs).length = col.length ∧
    ∀ r < col.length, (mark root col bs).getD r 0
      = if bs.getD r false = true then root else col.getD r 0 := by
  intro col
  induction col with
  | nil => intro bs h; cases bs <;> simp [mark]
  | cons c col ih =>
    intro bs h
    rcases bs with _ | ⟨b, bs⟩
    · simp at h
    · obtain ⟨h1, h2⟩ := ih bs (by simpa using h)
      refine ⟨by simp [mark, h1], ?_⟩
      intro r hr
      rcases r with _ | r
      · simp [mark]
      · rw [mark, List.getD_cons_succ, h2 r (by simpa using hr), List.getD_cons_succ,
          List.getD_cons_succ]

theorem assignLoop_spec (query : Expr F) (hq : query.sels = []) (hd : query.degree = 1)
    (index len n : ℕ) (hchar : ∀ i : ℕ, 0 < i → i ≤ len → (i : F) ≠ 0) :
    ∀ (ss : List Desc) (k : ℕ) (col : List F), k + ss.length ≤ len → col.length = n →
    (∀ s ∈ ss, s.activations.length = n) → ss.Pairwise Disjoint →
    ∃ ps : List (Desc × Assignment F), ∃ col',
      assignLoop query index len ss ((k + 1 : ℕ) : F) col = some (ps.map Prod.snd, col') ∧
      ps.map Prod.fst = ss ∧ col'.length = n ∧
      (∀ r < n, (∀ s ∈ ss, s.active r = false) → col'.getD r 0 = col.getD r 0) ∧
      ∀ p ∈ ps, p.2.selector = p.1.selector ∧ p.2.combination = index ∧
        ∃ t, k ≤ t ∧ t < k + ss.length ∧
          rootsLoop query ((t + 1 : ℕ) : F) len 1 query = some p.2.expression ∧
          ∀ r < n, (∀ s ∈ ss, s.active r = false) ∧ p.1.active r = false ∨
            (∃ t', k ≤ t' ∧ t' < k + ss.length ∧ col'.getD r 0 = ((t' + 1 : ℕ) : F) ∧
              (t' = t ↔ p.1.active r = true)) := by
  intro ss
  induction ss with
  | nil =>
    intro k col _ hc _ _
    exact ⟨[], col, rfl, rfl, hc, fun _ _ _ => rfl, by simp⟩
  | cons s ss ih =>
    intro k col hlen hc hact hdis
    obtain ⟨hm1, hm2⟩ := mark_spec ((k + 1 : ℕ) : F) col s.activations
      (by rw [hc, hact s (by simp)])
    obtain ⟨hd1, hd2⟩ := List.pairwise_cons.1 hdis
    obtain ⟨ps, col', e1, e2, e3, e4, e5⟩ := ih (k + 1) (mark ((k + 1 : ℕ) : F) col s.activations)
      (by simp at hlen; omega) (by rw [hm1, hc]) (fun t ht => hact t (by simp [ht])) hd2
    obtain ⟨e, r1, r2, r3, r4, r5⟩ := root_expr query hq hd len k (by simp at hlen; omega) hchar
    refine ⟨(s, ⟨s.selector, index, e⟩) :: ps, col', ?_, ?_, e3, ?_, ?_⟩
    · rw [assignLoop, r1, Option.bind_some,
        show ((k + 1 : ℕ) : F) + 1 = ((k + 1 + 1 : ℕ) : F) by push_cast; ring, e1]
      rfl
    · rw [List.map_cons, e2]
    · intro r hr hall
      rw [e4 r hr fun t ht => hall t (by simp [ht]), hm2 r (by omega)]
      have := hall s (by simp)
      rw [Desc.active] at this
      rw [this]
      simp
    · intro p hp
      rw [List.mem_cons] at hp
      rcases hp with rfl | hp
      · refine ⟨rfl, rfl, k, le_refl _, by simp, r1, ?_⟩
        intro r hr
        by_cases hs : s.active r = true
        · right
          refine ⟨k, le_refl _, by simp, ?_, by simp [hs]⟩
          rw [e4 r hr fun t ht => by
            have := hd1 t ht r
            rw [hs] at this
            simpa using this, hm2 r (by omega)]
          rw [Desc.active] at hs
          rw [if_pos hs]
        · by_cases hall : ∀ t ∈ ss, t.active r = false
          · left
            simp only [Bool.not_eq_true] at hs
            refine ⟨?_, hs⟩
            intro t ht
            rw [List.mem_cons] at ht
            rcases ht with rfl | ht
            · exact hs
            · exact hall t ht
          · right
            push Not at hall
            obtain ⟨t, ht, hta⟩ := hall
            rw [← e2, List.mem_map] at ht
            obtain ⟨q, hq', rfl⟩ := ht
            obtain ⟨_, _, u, hu1, hu2, _, hu4⟩ := e5 q hq'
            rcases hu4 r hr with h' | ⟨t', h1, h2, h3, _⟩
            · rw [h'.2] at hta; exact absurd rfl hta
            · refine ⟨t', by omega, by simp; omega, h3, ?_⟩
              constructor
              · intro h'; omega
              · intro h'; exact absurd h' hs
      · obtain ⟨q1, q2, u, hu1, hu2, hu3, hu4⟩ := e5 p hp
        refine ⟨q1, q2, u, by omega, by simp; omega, hu3, ?_⟩
        intro r hr
        rcases hu4 r hr with h' | ⟨t', h1, h2, h3, h4⟩
        · by_cases hs : s.active r = true
          · right
            refine ⟨k, le_refl _, by simp, ?_, ?_⟩
            · rw [e4 r hr h'.1, hm2 r (by omega)]
              rw [Desc.active] at hs
              rw [if_pos hs]
            · rw [h'.2]
              constructor
              · intro; omega
              · intro h; simp at h
          · left
            refine ⟨?_, h'.2⟩
            intro t ht
            rw [List.mem_cons] at ht
            rcases ht with rfl | ht
            · simpa using hs
            · exact h'.1 t ht
        · right
          exact ⟨t', by omega, by simp; omega, h3, h4⟩

/-! ### Choosing the members -/

theorem isExcluded_spec (sels : List Desc) (j : ℕ) (s : Desc) (hj : sels[j]? = some s) :
    ∀ comb : List (ℕ × Desc), (∀ p ∈ comb, p.1 < j ∧ sels[p.1]? = some p.2) →
    isExcluded (exclusionMatrix sels) j comb
      = some (comb.any fun p => conflict s.activations p.2.activations) := by
  intro comb
  induction comb with
  | nil => intro _; rfl
  | cons p comb ih =>
    obtain ⟨i, t⟩ := p
    intro h
    obtain ⟨hi, ht⟩ := h (i, t) (by simp)
    have hm : ((exclusionMatrix sels)[j]?).bind (fun row => row[i]?)
        = some (conflict s.activations t.activations) := by
      rw [exclusionMatrix, List.getElem?_mapIdx, hj]
      simp only [Option.map_some, Option.bind_some, List.getElem?_map, List.getElem?_take]
      simp only at ht hi
      rw [if_pos hi, ht]
      rfl
    rw [isExcluded, hm, Option.bind_some, ih fun p hp => h p (by simp [hp]), List.any_cons]
    cases conflict s.activations t.activations <;> rfl

/-- What the loops know about the enumerated selectors still to visit. -/
structure RestOk (sels : List Desc) (n maxDegree : ℕ) (added : List Bool)
    (rest : List (ℕ × Desc)) : Prop where
  sorted : rest.Pairwise fun p q => p.1 < q.1
  get : ∀ p ∈ rest, sels[p.1]? = some p.2
  len : added.length = sels.length
  act : ∀ p ∈ rest, p.2.activations.length = n
  deg : ∀ p ∈ rest, 0 < p.2.maxDegree ∧ p.2.maxDegree ≤ maxDegree

theorem RestOk.tail {sels : List Desc} {n maxDegree : ℕ} {added : List Bool} {p : ℕ × Desc}
    {rest : List (ℕ × Desc)} (h : RestOk sels n maxDegree added (p :: rest)) :
    RestOk sels n maxDegree added rest :=
  ⟨(List.pairwise_cons.1 h.1).2, fun q hq => h.2 q (by simp [hq]), h.3,
    fun q hq => h.4 q (by simp [hq]), fun q hq => h.5 q (by simp [hq])⟩

theorem trySelectors_spec (sels : List Desc) (n maxDegree : ℕ) :
    ∀ (rest : List (ℕ × Desc)) (d : ℕ) (comb : List (ℕ × Desc)) (added : List Bool),
    RestOk sels n maxDegree added rest →
    (∀ p ∈ comb, sels[p.1]? = some p.2 ∧ ∀ q ∈ rest, p.1 < q.1) →
    comb.Pairwise (fun p q => Disjoint p.2 q.2) →
    d + comb.length ≤ maxDegree → (∀ p ∈ comb, p.2.maxDegree - 1 ≤ d) →
    ∃ d' new added', trySelectors (exclusionMatrix sels) maxDegree rest d comb added
        = some (d', comb ++ new, added') ∧
      new.Sublist rest ∧ (∀ p ∈ new, added.getD p.1 false = false) ∧
      (comb ++ new).Pairwise (fun p q => Disjoint p.2 q.2) ∧
      d' + (comb ++ new).length ≤ maxDegree ∧ (∀ p ∈ comb ++ new, p.2.maxDegree - 1 ≤ d') ∧
      added'.length = added.length ∧
      ∀ j, added'.getD j false = true ↔ added.getD j false = true ∨ ∃ p ∈ new, p.1 = j := by
  intro rest
  induction rest with
  | nil =>
    intro d comb added _ _ h3 h4 h5
    exact ⟨d, [], added, by simp [trySelectors], by simp, by simp, by simpa using h3,
      by simpa using h4, by simpa using h5, rfl, by simp⟩
  | cons p rest ih =>
    obtain ⟨j, s⟩ := p
    intro d comb added hr hc h3 h4 h5
    have hstop : ∃ new added', some (d, comb, added) = some (d, comb ++ new, added') ∧
        new = [] ∧ added' = added := ⟨[], added, by simp, rfl, rfl⟩
    have hskip : (∃ d' new added', trySelectors (exclusionMatrix sels) maxDegree rest d comb added
          = some (d', comb ++ new, added') ∧ new.Sublist rest ∧
        (∀ p ∈ new, added.getD p.1 false = false) ∧
        (comb ++ new).Pairwise (fun p q => Disjoint p.2 q.2) ∧
        d' + (comb ++ new).length ≤ maxDegree ∧ (∀ p ∈ comb ++ new, p.2.maxDegree - 1 ≤ d') ∧
        added'.length = added.length ∧
        ∀ j, added'.getD j false = true ↔ added.getD j false = true ∨ ∃ p ∈ new, p.1 = j) :=
      ih d comb added hr.tail
        (fun p hp => ⟨(hc p hp).1, fun q hq => (hc p hp).2 q (by simp [hq])⟩) h3 h4 h5
    rw [trySelectors]
    by_cases hfull : d + comb.length = maxDegree
    · rw [if_pos hfull]
      exact ⟨d, [], added, by simp, by simp, by simp, by simpa using h3, by simpa using h4,
        by simpa using h5, rfl, by simp⟩
    rw [if_neg hfull]
    have hj : j < added.length := by
      rw [hr.len]
      exact (List.getElem?_eq_some_iff.1 (hr.get (j, s) (by simp))).1
    rw [List.getElem?_eq_getElem hj]
    rcases hadd : added[j] with _ | _
    swap
    · simp only
      obtain ⟨d', new, added', e1, e2, e⟩ := hskip
      exact ⟨d', new, added', e1, e2.trans (List.sublist_cons_self _ _), e⟩
    simp only
    have haddD : added.getD j false = false := by rw [List.getD_eq_getElem _ _ hj, hadd]
    rw [isExcluded_spec sels j s (hr.get (j, s) (by simp)) comb
      fun p hp => ⟨(hc p hp).2 (j, s) (by simp), (hc p hp).1⟩, Option.bind_some]
    by_cases hex : comb.any (fun p => conflict s.activations p.2.activations) = true
    · rw [if_pos hex]
      obtain ⟨d', new, added', e1, e2, e⟩ := hskip
      exact ⟨d', new, added', e1, e2.trans (List.sublist_cons_self _ _), e⟩
    rw [if_neg hex]
    have hdisj : ∀ p ∈ comb, Disjoint p.2 s := by
      intro p hp r hr'
      have : conflict s.activations p.2.activations = false := by
        by_contra hcf
        exact hex (List.any_eq_true.2 ⟨p, hp, by simpa using hcf⟩)
      exact (conflict_iff _ _).1 this r ⟨hr'.2, hr'.1⟩
    by_cases hdeg : max d (s.maxDegree - 1) + comb.length + 1 > maxDegree
    · rw [if_pos hdeg]
      obtain ⟨d', new, added', e1, e2, e⟩ := hskip
      exact ⟨d', new, added', e1, e2.trans (List.sublist_cons_self _ _), e⟩
    rw [if_neg hdeg]
    have hsort := List.pairwise_cons.1 hr.sorted
    obtain ⟨d', new, added', e1, e2, e3, e4, e5, e6, e7, e8⟩ := ih (max d (s.maxDegree - 1))
      (comb ++ [(j, s)]) (added.set j true)
      ⟨hsort.2, hr.tail.get, by rw [List.length_set]; exact hr.len, hr.tail.act, hr.tail.deg⟩
      (by
        intro p hp
        rw [List.mem_append, List.mem_singleton] at hp
        rcases hp with hp | rfl
        · exact ⟨(hc p hp).1, fun q hq => (hc p hp).2 q (by simp [hq])⟩
        · exact ⟨hr.get _ (by simp), fun q hq => hsort.1 q hq⟩)
      (by
        rw [List.pairwise_append]
        refine ⟨h3, by simp, ?_⟩
        intro p hp q hq
        rw [List.mem_singleton] at hq
        subst hq
        exact hdisj p hp)
      (by simp; omega)
      (by
        intro p hp
        rw [List.mem_append, List.mem_singleton] at hp
        rcases hp with hp | rfl
        · exact (h5 p hp).trans (le_max_left _ _)
        · exact le_max_right _ _)
    have hset : ∀ i, (added.set j true).getD i false = true ↔
        added.getD i false = true ∨ i = j := by
      intro i
      rw [List.getD_eq_getElem?_getD, List.getElem?_set, List.getD_eq_getElem?_getD]
      by_cases hij : j = i
      · subst hij; simp [hj]
      · simp [hij, Ne.symm hij]
    refine ⟨d', (j, s) :: new, added', ?_, List.Sublist.cons₂ _ e2, ?_, ?_, ?_, ?_, ?_, ?_⟩
    · rw [e1, List.append_assoc, List.singleton_append]
    · intro p hp
      rw [List.mem_cons] at hp
      rcases hp with rfl | hp
      · exact haddD
      · have := e3 p hp
        have h' : ¬ (added.set j true).getD p.1 false = true := by rw [this]; simp
        rw [hset] at h'
        push Not at h'
        simpa using h'.1
    · rwa [List.append_assoc, List.singleton_append] at e4
    · rwa [List.append_assoc, List.singleton_append] at e5
    · rwa [List.append_assoc, List.singleton_append] at e6
    · rw [e7, List.length_set]
    · intro i
      rw [e8, hset]
      simp only [List.mem_cons, exists_eq_or_imp, or_assoc, eq_comm (a := i)]

/-! ### All combinations -/

/-- What an assignment of a selector guarantees. -/
structure Sound (query : ℕ → Expr F) (n maxDegree : ℕ) (cols : List (List F)) (s : Desc)
    (a : Assignment F) : Prop where
  sel : a.selector = s.selector
  col : ∃ col, cols[a.combination]? = some col ∧ col.length = n ∧
    ∀ r < n, ∀ v, (query a.combination).value id v = col.getD r 0 →
      (a.expression.value id v ≠ 0 ↔ s.active r = true) ∧
      (s.maxDegree = 0 → a.expression.value id v = if s.active r then 1 else 0)
  sels : a.expression.sels = []
  covers : ∀ cs : Cs F, cs.Covers (query a.combination) → cs.Covers a.expression
  degPos : 1 ≤ a.expression.degree
  deg : 0 < s.maxDegree → a.expression.degree + (s.maxDegree - 1) ≤ maxDegree
  deg0 : s.maxDegree = 0 → a.expression.degree = 1

theorem Sound.mono {query : ℕ → Expr F} {n maxDegree : ℕ} {cols cols' : List (List F)} {s : Desc}
    {a : Assignment F} (h : Sound query n maxDegree cols s a) :
    Sound query n maxDegree (cols ++ cols') s a := by
  obtain ⟨h1, ⟨col, h2, h3⟩, h4, h5, h6, h7, h8⟩ := h
  exact ⟨h1, ⟨col, Cs.prefix_get ⟨cols', rfl⟩ h2, h3⟩, h4, h5, h6, h7, h8⟩

/-- All assignments made so far are sound and members of one column are disjoint. -/
structure AllSound (query : ℕ → Expr F) (n maxDegree : ℕ) (cols : List (List F))
    (ps : List (Desc × Assignment F)) : Prop where
  sound : ∀ p ∈ ps, Sound query n maxDegree cols p.1 p.2
  disj : ps.Pairwise fun p q => p.2.combination = q.2.combination → Disjoint p.1 q.1
  cols : ∀ c ∈ cols, c.length = n

theorem Sound.lt {query : ℕ → Expr F} {n maxDegree : ℕ} {cols : List (List F)} {s : Desc}
    {a : Assignment F} (h : Sound query n maxDegree cols s a) : a.combination < cols.length := by
  obtain ⟨col, h, _⟩ := h.col
  exact (List.getElem?_eq_some_iff.1 h).1

theorem AllSound.append {query : ℕ → Expr F} {n maxDegree : ℕ} {cols : List (List F)}
    {ps new : List (Desc × Assignment F)} {col : List F} (h : AllSound query n maxDegree cols ps)
    (hl : col.length = n)
    (hn : ∀ p ∈ new, Sound query n maxDegree (cols ++ [col]) p.1 p.2 ∧
      p.2.combination = cols.length)
    (hd : new.Pairwise fun p q => Disjoint p.1 q.1) :
    AllSound query n maxDegree (cols ++ [col]) (ps ++ new) := by
  refine ⟨?_, ?_, ?_⟩
  · intro p hp
    rw [List.mem_append] at hp
    rcases hp with hp | hp
    · exact (h.sound p hp).mono
    · exact (hn p hp).1
  · rw [List.pairwise_append]
    refine ⟨h.disj, by refine hd.imp ?_; intro p q h _; exact h, ?_⟩
    intro p hp q hq he
    have h1 := (h.sound p hp).lt
    rw [he, (hn q hq).2] at h1
    omega
  · intro c hc
    rw [List.mem_append, List.mem_singleton] at hc
    rcases hc with hc | rfl
    · exact h.cols c hc
    · exact hl

theorem combineLoop_spec (query : ℕ → Expr F) (hq : ∀ k, (query k).sels = [])
    (hqd : ∀ k, (query k).degree = 1) (sels : List Desc) (n maxDegree : ℕ)
    (hchar : ∀ i : ℕ, 0 < i → i ≤ maxDegree → (i : F) ≠ 0) :
    ∀ (rest : List (ℕ × Desc)) (added : List Bool) (cols : List (List F))
      (ps : List (Desc × Assignment F)),
    RestOk sels n maxDegree added rest → AllSound query n maxDegree cols ps →
    ∃ cols' ps', combineLoop query (exclusionMatrix sels) maxDegree n rest added cols
        (ps.map Prod.snd) = some (cols', ps'.map Prod.snd) ∧
      AllSound query n maxDegree cols' ps' ∧
      (ps'.map Prod.fst).Perm (ps.map Prod.fst ++
        (rest.filter fun p => !added.getD p.1 false).map Prod.snd) := by
  intro rest
  induction rest with
  | nil => intro added cols ps _ hs; exact ⟨cols, ps, rfl, hs, by simp⟩
  | cons p rest ih =>
    obtain ⟨i, s⟩ := p
    intro added cols ps hr hs
    have hi : i < added.length := by
      rw [hr.len]
      exact (List.getElem?_eq_some_iff.1 (hr.get (i, s) (by simp))).1
    rw [combineLoop, List.getElem?_eq_getElem hi]
    rcases hadd : added[i] with _ | _
    swap
    · simp only
      obtain ⟨cols', ps', e1, e2, e3⟩ := ih added cols ps hr.tail hs
      refine ⟨cols', ps', e1, e2, ?_⟩
      rw [List.filter_cons, if_neg (by rw [List.getD_eq_getElem _ _ hi, hadd]; simp)]
      exact e3
    simp only
    have hdeg := hr.deg (i, s) (by simp)
    simp only at hdeg
    rw [if_pos hdeg.2]
    have hsort := List.pairwise_cons.1 hr.sorted
    obtain ⟨d', new, added', e1, e2, e3, e4, e5, e6, e7, e8⟩ := trySelectors_spec sels n maxDegree
      rest (s.maxDegree - 1) [(i, s)] (added.set i true)
      ⟨hsort.2, hr.tail.get, by rw [List.length_set]; exact hr.len, hr.tail.act, hr.tail.deg⟩
      (by
        intro p hp
        rw [List.mem_singleton] at hp
        subst hp
        exact ⟨hr.get _ (by simp), fun q hq => hsort.1 q hq⟩)
      (by simp) (by simp; omega) (by simp; omega)
    rw [e1, Option.bind_some]
    simp only
    set comb := [(i, s)] ++ new with hcomb
    have hsub : ∀ p ∈ comb, p ∈ (i, s) :: rest := by
      intro p hp
      rw [hcomb, List.mem_append, List.mem_singleton] at hp
      rcases hp with rfl | hp
      · simp
      · exact List.mem_cons_of_mem _ (e2.subset hp)
    have hlen0 : comb.length ≤ maxDegree := by omega
    obtain ⟨qs, col, a1, a2, a3, a4, a5⟩ := assignLoop_spec (query cols.length) (hq _) (hqd _)
      cols.length comb.length n (fun k h1 h2 => hchar k h1 (h2.trans hlen0)) (comb.map Prod.snd) 0
      (List.replicate n 0) (by simp) (by simp)
      (by
        intro t ht
        obtain ⟨p, hp, rfl⟩ := List.mem_map.1 ht
        exact hr.act p (hsub p hp))
      (by rw [List.pairwise_map]; exact e4)
    have a1' : assignLoop (query cols.length) cols.length comb.length (comb.map Prod.snd) 1
        (List.replicate n 0) = some (qs.map Prod.snd, col) := by
      rw [← a1]; congr 1; simp
    rw [a1', Option.bind_some]
    simp only
    rw [← List.map_append]
    have hnewsound : AllSound query n maxDegree (cols ++ [col]) (ps ++ qs) := by
      apply hs.append a3
      · intro p hp
        obtain ⟨b1, b2, t, ht1, ht2, b3, b4⟩ := a5 p hp
        have hpc : p.1 ∈ comb.map Prod.snd := by rw [← a2]; exact List.mem_map_of_mem hp
        obtain ⟨pc, hpc1, hpc2⟩ := List.mem_map.1 hpc
        have hpd := hr.deg pc (hsub pc hpc1)
        rw [hpc2] at hpd
        have ht3 : t < comb.length := by simpa using ht2
        obtain ⟨e, r1, r2, r3, r4, r5⟩ := root_expr (query cols.length) (hq _) (hqd _) comb.length
          t ht3 (fun k h1 h2 => hchar k h1 (h2.trans hlen0))
        have hee : e = p.2.expression := by rw [r1] at b3; exact Option.some.inj b3
        subst hee
        refine ⟨⟨b1, ⟨col, by rw [b2]; simp, a3, ?_⟩, r2, ?_, ?_, ?_, ?_⟩, b2⟩
        · intro r hr' v hv
          rw [b2] at hv
          refine ⟨?_, fun h0 => by omega⟩
          rcases b4 r hr' with h' | ⟨t', h1, h2, h3, h4⟩
          · rw [a4 r hr' h'.1] at hv
            have hv0 : (query cols.length).value id v = ((0 : ℕ) : F) := by
              rw [hv, List.getD_eq_getElem _ _ (by simpa using hr')]; simp
            rw [r3 v 0 (by omega) hv0, h'.2]
            simp
          · rw [h3] at hv
            rw [r3 v (t' + 1) (by simp at h2; simpa using h2) hv, ← h4]
            omega
        · rw [b2]; exact r5
        · rw [r4]; omega
        · intro _
          have := e6 pc hpc1
          rw [hpc2] at this
          rw [r4]
          omega
        · intro h0; omega
      · have : (qs.map Prod.fst).Pairwise Disjoint := by
          rw [a2, List.pairwise_map]; exact e4
        rwa [List.pairwise_map] at this
    obtain ⟨cols', ps', f1, f2, f3⟩ := ih added' (cols ++ [col]) (ps ++ qs)
      ⟨hsort.2, hr.tail.get, by rw [e7, List.length_set]; exact hr.len, hr.tail.act, hr.tail.deg⟩
      hnewsound
    refine ⟨cols', ps', f1, f2, f3.trans ?_⟩
    rw [List.map_append, a2, List.append_assoc]
    apply List.Perm.append_left
    rw [← List.map_append]
    apply List.Perm.map
    rw [List.filter_cons, if_pos (by rw [List.getD_eq_getElem _ _ hi, hadd]; simp), hcomb,
      List.singleton_append, List.cons_append]
    apply List.Perm.cons
    have hset : ∀ k, (added.set i true).getD k false = true ↔
        added.getD k false = true ∨ k = i := by
      intro k
      rw [List.getD_eq_getElem?_getD, List.getElem?_set, List.getD_eq_getElem?_getD]
      by_cases hij : i = k
      · subst hij; simp [hi]
      · simp [hij, Ne.symm hij]
    have hnd : rest.Nodup := hsort.2.imp fun h he => by subst he; exact absurd h (lt_irrefl _)
    have hinj : ∀ p ∈ rest, ∀ q ∈ rest, p.1 = q.1 → p = q := by
      intro p hp q hq he
      have h1 := hr.tail.get p hp
      rw [he, hr.tail.get q hq] at h1
      exact Prod.ext he (Option.some.inj h1).symm
    rw [List.perm_ext_iff_of_nodup]
    · intro p
      rw [List.mem_append, List.mem_filter, List.mem_filter]
      simp only [Bool.not_eq_true']
      constructor
      · rintro (hp | ⟨hp, hp'⟩)
        · have h1 := e3 p hp
          have h2 : ¬ (added.set i true).getD p.1 false = true := by rw [h1]; simp
          rw [hset] at h2
          push Not at h2
          exact ⟨e2.subset hp, by simpa using h2.1⟩
        · refine ⟨hp, ?_⟩
          have h2 : ¬ added'.getD p.1 false = true := by rw [hp']; simp
          rw [e8, hset] at h2
          push Not at h2
          simpa using h2.1.1
      · rintro ⟨hp, hp'⟩
        by_cases hnew : p ∈ new
        · exact .inl hnew
        · right
          refine ⟨hp, ?_⟩
          by_contra h2
          rw [Bool.not_eq_false, e8, hset, hp'] at h2
          rcases h2 with (h2 | h2) | ⟨q, hq, h2⟩
          · simp at h2
          · have := hsort.1 p hp
            simp only at this
            omega
          · exact hnew (hinj q (e2.subset hq) p hp h2 ▸ hq)
    · rw [List.nodup_append]
      refine ⟨e2.nodup hnd, hnd.filter _, ?_⟩
      intro p hp q hq he
      subst he
      rw [List.mem_filter, Bool.not_eq_true'] at hq
      have h2 : ¬ added'.getD p.1 false = true := by rw [hq.2]; simp
      rw [e8] at h2
      push Not at h2
      exact h2.2 p hp rfl
    · exact hnd.filter _

theorem retainPhase_spec (query : ℕ → Expr F) (hq : ∀ k, (query k).sels = [])
    (hqd : ∀ k, (query k).degree = 1) (n maxDegree : ℕ) :
    ∀ (ss : List Desc) (cols : List (List F)) (ps : List (Desc × Assignment F)),
    (∀ s ∈ ss, s.activations.length = n) → AllSound query n maxDegree cols ps →
    ∃ cols' ps', retainPhase query ss cols (ps.map Prod.snd)
        = (cols', ps'.map Prod.snd, ss.filter fun s => s.maxDegree ≠ 0) ∧
      AllSound query n maxDegree cols' ps' ∧
      ps'.map Prod.fst = ps.map Prod.fst ++ ss.filter fun s => s.maxDegree = 0 := by
  intro ss
  induction ss with
  | nil => intro cols ps _ h; exact ⟨cols, ps, rfl, h, by simp⟩
  | cons s ss ih =>
    intro cols ps hact hs
    by_cases h0 : s.maxDegree = 0
    · have hcol : (s.activations.map fun b => if b then (1 : F) else 0).length = n := by
        rw [List.length_map]; exact hact s (by simp)
      obtain ⟨cols', ps', e1, e2, e3⟩ := ih
        (cols ++ [s.activations.map fun b => if b then (1 : F) else 0])
        (ps ++ [(s, ⟨s.selector, cols.length, query cols.length⟩)])
        (fun t ht => hact t (by simp [ht])) (hs.append hcol (by
          intro p hp
          rw [List.mem_singleton] at hp
          subst hp
          refine ⟨⟨rfl, ⟨_, by simp, hcol, ?_⟩, hq _, fun _ h => h, ?_, fun h => ?_,
            fun _ => hqd _⟩, rfl⟩
          · intro r hr v hv
            simp only at hv ⊢
            have hv' : (query cols.length).value id v = if s.active r then 1 else 0 := by
              rw [hv, List.getD_eq_getElem _ _ (by omega), List.getElem_map, Desc.active,
                List.getD_eq_getElem]
            rw [hv']
            refine ⟨?_, fun _ => rfl⟩
            cases s.active r <;> simp
          · simp [hqd]
          · simp only at h; omega) (by simp))
      refine ⟨cols', ps', ?_, e2, ?_⟩
      · rw [retainPhase, if_pos h0, List.filter_cons, if_neg (by simpa using h0), ← e1,
          List.map_append]
        rfl
      · rw [e3, List.filter_cons, if_pos (by simpa using h0)]
        simp
    · obtain ⟨cols', ps', e1, e2, e3⟩ := ih cols ps (fun t ht => hact t (by simp [ht])) hs
      refine ⟨cols', ps', ?_, e2, ?_⟩
      · rw [retainPhase, if_neg h0, e1, List.filter_cons, if_pos (by simpa using h0)]
      · rw [e3, List.filter_cons, if_neg (by simpa using h0)]

/-- The packing: it panics only if the activation vectors differ in length or a selector's degree
exceeds the maximum; otherwise every selector gets one sound assignment. -/
theorem process_spec (query : ℕ → Expr F) (hq : ∀ k, (query k).sels = [])
    (hqd : ∀ k, (query k).degree = 1) (ss : List Desc) (n maxDegree : ℕ)
    (hact : ∀ s ∈ ss, s.activations.length = n) (hdeg : ∀ s ∈ ss, s.maxDegree ≤ maxDegree)
    (hchar : ∀ i : ℕ, 0 < i → i ≤ maxDegree → (i : F) ≠ 0) :
    ∃ cols ps, process ss maxDegree query = some (cols, ps.map Prod.snd) ∧
      AllSound query n maxDegree cols ps ∧ (ps.map Prod.fst).Perm ss := by
  rcases ss with _ | ⟨s₀, ss⟩
  · exact ⟨[], [], rfl, ⟨by simp, by simp, by simp⟩, by simp⟩
  have hn : s₀.activations.length = n := hact s₀ (by simp)
  rw [process]
  simp only
  rw [if_pos (by
    rw [List.all_eq_true]
    intro s hs
    simp [hact s hs, hn]), hn]
  obtain ⟨cols₁, ps₁, e1, e2, e3⟩ := retainPhase_spec query hq hqd n maxDegree (s₀ :: ss) [] []
    hact ⟨by simp, by simp, by simp⟩
  simp only [List.map_nil] at e1
  rw [e1]
  simp only
  set simple := (s₀ :: ss).filter fun s => s.maxDegree ≠ 0 with hsimple
  have hmem : ∀ p ∈ simple.mapIdx (fun i s => (i, s)), simple[p.1]? = some p.2 := by
    intro p hp
    obtain ⟨i, hi, rfl⟩ := List.mem_mapIdx.1 hp
    exact List.getElem?_eq_getElem hi
  have hmem' : ∀ p ∈ simple.mapIdx (fun i s => (i, s)), p.2 ∈ simple := by
    intro p hp
    exact List.mem_of_getElem? (hmem p hp)
  obtain ⟨cols', ps', f1, f2, f3⟩ := combineLoop_spec query hq hqd simple n maxDegree hchar
    (simple.mapIdx fun i s => (i, s)) (List.replicate simple.length false) cols₁ ps₁
    ⟨by
      rw [List.pairwise_iff_getElem]
      intro i j hi hj hij
      simpa using hij, hmem, by simp,
      fun p hp => hact _ (List.mem_of_mem_filter (hmem' p hp)),
      fun p hp => by
        have h1 := hmem' p hp
        rw [hsimple, List.mem_filter] at h1
        exact ⟨Nat.pos_of_ne_zero (by simpa using h1.2), hdeg _ h1.1⟩⟩ e2
  refine ⟨cols', ps', f1, f2, f3.trans ?_⟩
  have hfil : ((simple.mapIdx fun i s => (i, s)).filter fun p =>
      !(List.replicate simple.length false).getD p.1 false) = simple.mapIdx fun i s => (i, s) := by
    rw [List.filter_eq_self]
    intro p hp
    rw [List.getD_eq_getElem?_getD, List.getElem?_replicate]
    split <;> rfl
  have hsnd : (simple.mapIdx fun i s => (i, s)).map Prod.snd = simple := by
    apply List.ext_getElem <;> simp
  rw [hfil, hsnd, e3, List.map_nil, List.nil_append]
  have := List.filter_append_perm (fun s : Desc => decide (s.maxDegree = 0)) (s₀ :: ss)
  simpa [hsimple] using this

end Verif.Selectors
