import Verif.Selectors.Props

/-!
# Selector compression, selector by selector

`compress_spec` speaks of whole gates and lookups.  Here: the expressions of the compressed system are
those of the circuit with every selector replaced by one expression, which reads no advice cell and
vanishes exactly on the rows where the selector is off.
-/

namespace Verif.Selectors

open Verif.Expr Verif.ExprEval
open Verif.Cs (Cs Lookup Reach reach_inv Inv Extends le_listMax listMax?)

variable {F : Type*} [Field F] [DecidableEq F]

/-- The advice queries of an expression. -/
def advices : Expr F → List Query
  | .advice q => [q]
  | .negated a => advices a
  | .sum a b => advices a ++ advices b
  | .product a b => advices a ++ advices b
  | .scaled a _ => advices a
  | _ => []

theorem advices_of_covers {cs : Cs F} (hq : cs.adviceQueries = []) (e : Expr F) (h : cs.Covers e) :
    advices e = [] := by
  induction e with
  | constant | selector | fixed | inst => rfl
  | advice q =>
    have h : cs.adviceQueries[q.index]? = some _ := h
    rw [hq] at h
    cases h
  | negated a ih => exact ih h
  | scaled a f ih => exact ih h
  | sum a b iha ihb => simp only [advices, iha h.1, ihb h.2, List.append_nil]
  | product a b iha ihb => simp only [advices, iha h.1, ihb h.2, List.append_nil]

theorem covers_fields {cs cs' : Cs F} (h1 : cs'.numSelectors = cs.numSelectors)
    (h2 : cs'.fixedQueries = cs.fixedQueries) (h3 : cs'.adviceQueries = cs.adviceQueries)
    (h4 : cs'.instanceQueries = cs.instanceQueries) (e : Expr F) (h : cs.Covers e) : cs'.Covers e := by
  induction e with
  | constant => trivial
  | selector s =>
    change s.index < cs'.numSelectors
    rw [h1]; exact h
  | fixed q =>
    change cs'.fixedQueries[q.index]? = _
    rw [h2]; exact h
  | advice q =>
    change cs'.adviceQueries[q.index]? = _
    rw [h3]; exact h
  | inst q =>
    change cs'.instanceQueries[q.index]? = _
    rw [h4]; exact h
  | negated a ih => exact ih h
  | scaled a f ih => exact ih h
  | sum a b iha ihb => exact ⟨iha h.1, ihb h.2⟩
  | product a b iha ihb => exact ⟨iha h.1, ihb h.2⟩

theorem compress_replaces (cs : Cs F) (hr : Reach cs) (hb : ∀ g ∈ cs.gates, ∀ e ∈ g, Built e)
    (selectors : List (List Bool))
    (hlen : selectors.length = cs.numSelectors) (n : ℕ) (hn : ∀ a ∈ selectors, a.length = n)
    (hchar : ∀ i : ℕ, 0 < i → i ≤ cs.degree → (i : F) ≠ 0) {cs' : Cs F} {polys' : List (List F)}
    {smap' : List ℕ} (hcomp : compressSelectors cs selectors = some (cs', polys', smap')) :
    ∃ ρ : ℕ → Expr F, cs'.gates = cs.gates.map (fun g => g.map (subst ρ)) ∧
      cs'.lookups = cs.lookups.map (fun l => ⟨l.input.map (subst ρ), l.table.map (subst ρ)⟩) ∧
      ∀ i < cs.numSelectors, advices (ρ i) = [] ∧ cs'.Covers (ρ i) ∧ ∀ (t : Cols F), ∀ j < n,
        (rowVal n (extend t cs.numFixed polys') j (ρ i) ≠ 0 ↔
          (selectors.getD i []).getD j false = true) := by
  have hinv := reach_inv hr
  have hcovG : ∀ e ∈ cs.gates.flatten, cs.Covers e := by
    intro e he
    obtain ⟨g, hg, he⟩ := List.mem_flatten.1 he
    exact (hinv.gates g hg).2 e he
  have hbF : ∀ e ∈ cs.gates.flatten, Built e := by
    intro e he
    obtain ⟨g, hg, he⟩ := List.mem_flatten.1 he
    exact hb g hg e he
  -- degrees
  obtain ⟨ds, d1, d2, _, d4, d5⟩ := selectorDegrees_spec cs.numSelectors cs.gates.flatten
    (List.replicate selectors.length 0) (by simpa using hlen) hbF
    (fun e he => sel_index_lt (hcovG e he))
  have hrep0 : ∀ i, (List.replicate selectors.length 0).getD i 0 = 0 := by
    intro i
    rw [List.getD_eq_getElem?_getD, List.getElem?_replicate]
    split <;> rfl
  have hds : ∀ i, ds.getD i 0 ≤ cs.degree := by
    intro i
    rcases d5 i with h | ⟨e, he, _, _, _, _, h⟩
    · rw [h, hrep0]; exact Nat.zero_le _
    · rw [h]
      obtain ⟨g, hg, he⟩ := List.mem_flatten.1 he
      exact gate_degree_le cs g hg e he
  -- packing
  obtain ⟨desc, hdesc⟩ : ∃ desc : List Desc, desc =
      (selectors.zip ds).mapIdx fun i p => (⟨i, p.1, p.2⟩ : Desc) := ⟨_, rfl⟩
  have hdl : desc.length = cs.numSelectors := by rw [hdesc]; simp [hlen, d2]
  have hdg : ∀ i (h : i < desc.length), desc[i] = ⟨i, selectors.getD i [], ds.getD i 0⟩ := by
    intro i h
    have h1 : i < selectors.length := by omega
    have h2 : i < ds.length := by omega
    simp only [hdesc, List.getElem_mapIdx, List.getElem_zip]
    rw [List.getD_eq_getElem _ _ h1, List.getD_eq_getElem _ _ h2]
  have hqsels : ∀ k, (allocate (allocated cs k)).1.sels = [] := fun k => rfl
  have hqdeg : ∀ k, (allocate (allocated cs k)).1.degree = 1 := fun k => rfl
  have hmemdesc : ∀ s ∈ desc, ∃ i < cs.numSelectors,
      s = ⟨i, selectors.getD i [], ds.getD i 0⟩ := by
    intro s hs
    obtain ⟨i, hi, rfl⟩ := List.mem_iff_getElem.1 hs
    exact ⟨i, by omega, hdg i hi⟩
  obtain ⟨polys, ps, p1, p2, p3⟩ := process_spec (fun k => (allocate (allocated cs k)).1) hqsels
    hqdeg desc n cs.degree
    (by
      intro s hs
      obtain ⟨i, hi, rfl⟩ := hmemdesc s hs
      refine hn _ ?_
      show selectors.getD i [] ∈ selectors
      rw [List.getD_eq_getElem _ _ (by omega)]
      exact List.getElem_mem _)
    (by
      intro s hs
      obtain ⟨i, hi, rfl⟩ := hmemdesc s hs
      exact hds i) hchar
  -- assignments are indexed by selector
  have hfst : ∀ p ∈ ps, ∃ i < cs.numSelectors, p.1 = ⟨i, selectors.getD i [], ds.getD i 0⟩ :=
    fun p hp => hmemdesc p.1 (p3.mem_iff.1 (List.mem_map_of_mem hp))
  have hsel : ps.map (fun p => p.2.selector) = (ps.map Prod.fst).map (·.selector) := by
    rw [List.map_map]
    apply List.map_congr_left
    intro p hp
    exact (p2.sound p hp).sel
  have hperm : ((ps.map Prod.snd).map (·.selector)).Perm (List.range cs.numSelectors) := by
    rw [List.map_map]
    show (ps.map fun p => p.2.selector).Perm _
    rw [hsel]
    refine (p3.map _).trans ?_
    rw [show desc.map (·.selector) = List.range cs.numSelectors from ?_]
    apply List.ext_getElem
    · simp [hdl]
    · intro i h1 h2
      rw [List.getElem_map, hdg, List.getElem_range]
  obtain ⟨smap, m1, m2, m3⟩ := table_spec
    (fun a => (((List.range polys.length).map fun k => (allocated cs k).numFixed)[a.combination]?))
    (fun a => cs.numFixed + a.combination) (ps.map Prod.snd) cs.numSelectors hperm (by
      intro a ha
      obtain ⟨p, hp, rfl⟩ := List.mem_map.1 ha
      rw [List.getElem?_map, List.getElem?_range (p2.sound p hp).lt, Option.map_some,
        (allocated_spec cs hinv _).2.2.1])
  obtain ⟨repl, r1, r2, r3⟩ := table_spec (fun a => some a.expression) (fun a => a.expression)
    (ps.map Prod.snd) cs.numSelectors hperm (fun _ _ => rfl)
  obtain ⟨ρ, hρ⟩ : ∃ ρ : ℕ → Expr F, ρ = fun i => repl.getD i (.constant 0) := ⟨_, rfl⟩
  have hall : ∀ i < cs.numSelectors, ∃ a, (⟨⟨i, selectors.getD i [], ds.getD i 0⟩, a⟩ :
      Desc × Assignment F) ∈ ps ∧ repl[i]? = some (ρ i) ∧ a.expression = ρ i := by
    intro i hi
    have h1 : (⟨i, selectors.getD i [], ds.getD i 0⟩ : Desc) ∈ ps.map Prod.fst := by
      rw [p3.mem_iff, ← hdg i (by omega)]
      exact List.getElem_mem _
    obtain ⟨⟨s, a⟩, hp, hs⟩ := List.mem_map.1 h1
    simp only at hs
    subst hs
    have h2 := r3 a (List.mem_map_of_mem (f := Prod.snd) hp)
    rw [(p2.sound _ hp).sel] at h2
    simp only at h2
    have h3 : ρ i = a.expression := by
      rw [hρ]
      simp only [List.getD_eq_getElem?_getD, h2, Option.getD_some]
    exact ⟨a, hp, by rw [h2, h3], h3.symm⟩
  have hnew : ∀ i < cs.numSelectors, (ρ i).sels = [] ∧ advices (ρ i) = [] ∧
      (allocated cs polys.length).Covers (ρ i) ∧
      ∀ (t : Cols F), ∀ j < n,
        (rowVal n (extend t cs.numFixed polys) j (ρ i) ≠ 0 ↔
          (selectors.getD i []).getD j false = true) := by
    intro i hi
    obtain ⟨a, ha, _, he⟩ := hall i hi
    have hs := p2.sound _ ha
    obtain ⟨qi, q1, q2⟩ := query_spec cs hinv a.combination polys.length hs.lt
    rw [← he]
    refine ⟨hs.sels, ?_, hs.covers _ q2, ?_⟩
    · refine advices_of_covers (cs := { allocated cs polys.length with adviceQueries := [] }) rfl _
        (hs.covers _ ?_)
      rw [q1] at q2 ⊢
      exact q2
    · intro t j hj
      obtain ⟨col, c1, c2, c3⟩ := hs.col
      refine (c3 j hj _ ?_).1
      simp only [q1, Expr.value, extend, rotRow_zero hj]
      rw [if_neg (by omega), Nat.add_sub_cancel_left]
      simp only [List.getD_eq_getElem?_getD, c1, Option.getD_some]
  have hgate : ∀ g ∈ cs.gates, ∀ e ∈ g, replace repl false e = some (subst ρ e) := by
    intro g hg e he
    have hlt := sel_index_lt ((hinv.gates g hg).2 e he)
    refine replace_eq ρ repl false e (fun s hs => ?_) (by simp)
    obtain ⟨a, _, h2, _⟩ := hall s.index (hlt s hs)
    exact ⟨h2, (hnew s.index (hlt s hs)).1⟩
  have hexpr : ∀ e : Expr F, cs.Covers e → (∀ s ∈ e.sels, s.simple = false) →
      replace repl true e = some (subst ρ e) := by
    intro e hcov hs
    have hlt := sel_index_lt hcov
    refine replace_eq ρ repl true e (fun s hs => ?_) (fun _ s h => hs s h)
    obtain ⟨a, _, h2, _⟩ := hall s.index (hlt s hs)
    exact ⟨h2, (hnew s.index (hlt s hs)).1⟩
  have hnosimple : ∀ e : Expr F, e.containsSimple = false → ∀ s ∈ e.sels, s.simple = false := by
    intro e he s hs
    by_contra hss
    rw [Bool.not_eq_false] at hss
    rw [(containsSimple_iff e).2 ⟨s, hs, hss⟩] at he
    simp at he
  have hgates := (mapM_forall₂ (fun g : List (Expr F) => g.mapM (replace repl false))
    (fun g => g.map (subst ρ)) (fun _ _ => True) cs.gates
    (fun g hg => ⟨(mapM_forall₂ _ _ (fun _ _ => True) g fun e he => ⟨hgate g hg e he, trivial⟩).1,
      trivial⟩)).1
  have hlook := (mapM_forall₂ (fun l : Lookup F => (l.input.mapM (replace repl true)).bind
      fun input => (l.table.mapM (replace repl true)).map fun table => (⟨input, table⟩ : Lookup F))
    (fun l => ⟨l.input.map (subst ρ), l.table.map (subst ρ)⟩) (fun _ _ => True) cs.lookups
    (fun l hl => by
      have a1 := (mapM_forall₂ _ (subst ρ) (fun _ _ => True) l.input fun e he =>
        ⟨hexpr e ((hinv.lookups l hl).2.1 e he).1
          (hnosimple e ((hinv.lookups l hl).2.1 e he).2), trivial⟩).1
      have b1 := (mapM_forall₂ _ (subst ρ) (fun _ _ => True) l.table fun e he =>
        ⟨hexpr e ((hinv.lookups l hl).2.2 e he).1 (by
          intro s hs; rw [((hinv.lookups l hl).2.2 e he).2] at hs; simp at hs), trivial⟩).1
      exact ⟨by rw [a1, b1]; rfl, trivial⟩)).1
  rw [compressSelectors, if_pos hlen, d1, Option.bind_some, ← hdesc, p1, Option.bind_some] at hcomp
  simp only at hcomp
  rw [show selectorMap (ps.map Prod.snd) _ = some smap from m1, Option.bind_some,
    show replacements (ps.map Prod.snd) = some repl from r1, Option.bind_some, hgates,
    Option.bind_some, hlook, Option.map_some] at hcomp
  simp only [Option.some.injEq, Prod.mk.injEq] at hcomp
  obtain ⟨rfl, rfl, rfl⟩ := hcomp
  refine ⟨ρ, rfl, rfl, fun i hi => ⟨(hnew i hi).2.1, ?_, (hnew i hi).2.2.2⟩⟩
  refine covers_fields (cs := allocated cs polys.length) ?_ ?_ ?_ ?_ _ (hnew i hi).2.2.1 <;> rfl

end Verif.Selectors
