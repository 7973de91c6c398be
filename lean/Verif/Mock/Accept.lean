import Verif.Mock.Props
import Verif.Mock.Tables

/-!
# C28, C29: what the mock prover accepts
-/

namespace Verif.Mock

open Verif.Assigned (Assigned)
open Verif.Cs (Column Kind Cs Lookup Reach)
open Verif.Expr
open Verif.ExprEval
open Verif.Rows

variable {F : Type} [Field F] [LinearOrder F] {columns : List Column} {n : ℕ}

theorem mapM_some_get {α β : Type*} {f : α → Option β} {l : List α} {l' : List β}
    (h : l.mapM f = some l') : l.map f = l'.map some := by
  have hf := mapM_forall₂_of f l l' h
  clear h
  induction hf with
  | nil => rfl
  | cons ha _ ih => rw [List.map_cons, List.map_cons, ha, ih]

theorem mapM_some_iff {α β : Type*} {f : α → Option β} {l : List α} (h : ∀ a ∈ l, f a ≠ none) :
    ∃ l', l.mapM f = some l' := by
  induction l with
  | nil => exact ⟨[], rfl⟩
  | cons a l ih =>
    obtain ⟨l', hl'⟩ := ih fun b hb => h b (by simp [hb])
    obtain ⟨b, hb⟩ := Option.ne_none_iff_exists'.1 (h a (by simp))
    exact ⟨b :: l', by rw [List.mapM_cons, hb, hl']; rfl⟩

theorem mem_of_mapM {α β : Type*} {f : α → Option β} {l : List α} {l' : List β}
    (h : l.mapM f = some l') (b : β) : b ∈ l' ↔ ∃ a ∈ l, f a = some b := by
  have := mapM_some_get h
  have h2 : some b ∈ l.map f ↔ some b ∈ l'.map some := by rw [this]
  simpa [eq_comm] using h2.symm

/-- C29: the check of a lookup does not panic if its expressions can be evaluated, and it reports
exactly the usable rows, each once, on which the tuple of inputs does not occur among the tuples of
the table on usable rows. -/
theorem lookupCheck_spec (cs : Cs F) (s : Rows.Mock F columns n) (l : Lookup F)
    (hlen : l.table.length = l.input.length) (hu : 0 < s.usable)
    (hin : ∀ j < s.usable, tuple cs s l.input j ≠ none)
    (htab : ∀ j < s.usable, tuple cs s l.table j ≠ none) :
    ∃ rows, lookupCheck cs s l = some rows ∧ rows.Nodup ∧ ∀ j, j ∈ rows ↔
      j < s.usable ∧ ∀ j' < s.usable, tuple cs s l.table j' ≠ tuple cs s l.input j := by
  unfold lookupCheck
  rw [if_pos ⟨hlen, hu⟩]
  obtain ⟨fillRow, hfill⟩ := Option.ne_none_iff_exists'.1 (htab (s.usable - 1) (by omega))
  obtain ⟨table, htable⟩ := mapM_some_iff (l := List.range s.usable) (f := tuple cs s l.table)
    fun j hj => htab j (List.mem_range.1 hj)
  obtain ⟨inputs, hinputs⟩ := mapM_some_iff (l := List.range s.usable) (f := tuple cs s l.input)
    fun j hj => hin j (List.mem_range.1 hj)
  rw [hfill, htable, hinputs]
  simp only [Option.bind_some]
  obtain ⟨rows, h1, h2⟩ := lookupRows_spec fillRow table (inputs.zip (List.range s.usable))
    ((mem_of_mapM htable fillRow).2 ⟨_, List.mem_range.2 (by omega), hfill⟩)
  have hget := mapM_some_get hinputs
  have hilen : inputs.length = s.usable := by
    have := congrArg List.length hget
    simpa using this.symm
  have hmem : ∀ j t, (t, j) ∈ inputs.zip (List.range s.usable) ↔
      j < s.usable ∧ tuple cs s l.input j = some t := by
    intro j t
    have hat : ∀ i : ℕ, (inputs[i]?).map some = ((List.range s.usable)[i]?).map (tuple cs s l.input) := by
      intro i
      rw [← List.getElem?_map, ← List.getElem?_map, hget]
    constructor
    · intro h
      obtain ⟨i, hi⟩ := List.mem_iff_getElem?.1 h
      rw [List.getElem?_zip_eq_some] at hi
      obtain ⟨ha, hb⟩ := hi
      have := hat i
      rw [ha, hb] at this
      simp only [Option.map_some, Option.some.injEq] at this
      exact ⟨List.mem_range.1 (List.mem_of_getElem? hb), this.symm⟩
    · rintro ⟨hj, ht⟩
      have := hat j
      rw [List.getElem?_range hj, Option.map_some, ht] at this
      obtain ⟨x, hx, hxt⟩ := Option.map_eq_some_iff.1 this
      cases hxt
      exact List.mem_iff_getElem?.2 ⟨j, List.getElem?_zip_eq_some.2 ⟨hx, List.getElem?_range hj⟩⟩
  refine ⟨rows, h1, ?_, ?_⟩
  · rw [h2.nodup_iff]
    refine List.Nodup.sublist (List.Sublist.map _ List.filter_sublist) ?_
    rw [List.map_snd_zip (by simp [hilen])]
    exact List.nodup_range
  · intro j
    rw [h2.mem_iff, List.mem_map]
    constructor
    · rintro ⟨⟨t, j'⟩, hp, rfl⟩
      rw [List.mem_filter] at hp
      obtain ⟨hp, hn⟩ := hp
      obtain ⟨hj, ht⟩ := (hmem _ _).1 hp
      refine ⟨hj, fun j'' hj'' he => ?_⟩
      simp only [decide_not, Bool.not_eq_eq_eq_not, Bool.not_true, decide_eq_false_iff_not] at hn
      exact hn ((mem_of_mapM htable t).2 ⟨j'', List.mem_range.2 hj'', he.trans ht⟩)
    · rintro ⟨hj, hn⟩
      obtain ⟨t, ht⟩ := Option.ne_none_iff_exists'.1 (hin j hj)
      refine ⟨(t, j), ?_, rfl⟩
      rw [List.mem_filter]
      refine ⟨(hmem _ _).2 ⟨hj, ht⟩, ?_⟩
      simp only [decide_not, Bool.not_eq_eq_eq_not, Bool.not_true, decide_eq_false_iff_not]
      intro h
      obtain ⟨j', hj', he⟩ := (mem_of_mapM htable t).1 h
      exact hn j' (List.mem_range.1 hj') (he.trans ht.symm)

theorem lookupCheck_some {cs : Cs F} {s : Rows.Mock F columns n} {l : Lookup F} {rows : List ℕ}
    (h : lookupCheck cs s l = some rows) :
    l.table.length = l.input.length ∧ 0 < s.usable ∧
      (∀ j < s.usable, tuple cs s l.input j ≠ none) ∧
      ∀ j < s.usable, tuple cs s l.table j ≠ none := by
  unfold lookupCheck at h
  split_ifs at h with h0
  obtain ⟨fillRow, -, h⟩ := Option.bind_eq_some_iff.1 h
  obtain ⟨table, htable, h⟩ := Option.bind_eq_some_iff.1 h
  obtain ⟨inputs, hinputs, -⟩ := Option.bind_eq_some_iff.1 h
  have key : ∀ (es : List (Expr F)) l', (List.range s.usable).mapM (tuple cs s es) = some l' →
      ∀ j < s.usable, tuple cs s es j ≠ none := by
    intro es l' hl j hj hn
    have h1 := mapM_some_get hl
    have h2 : (none : Option (List (Val F))) ∈ l'.map some := by
      rw [← h1, List.mem_map]
      exact ⟨j, List.mem_range.2 hj, hn⟩
    simp at h2
  exact ⟨h0.1, h0.2, key _ _ hinputs, key _ _ htable⟩

/-- A tuple of real values is the tuple of the values the expressions have. -/
theorem tuple_vals {cs : Cs F} {k : ℕ} (hk : k ≤ 64) {inst : List (List F)} {ops : List (Op F)}
    {polys : List (List F)} {s : Rows.Mock F cs.permutation (2 ^ k)}
    (h : CellsOk cs (2 ^ k) inst ops polys s) (cs' : Cs F) (act : ℕ → ℕ → Bool) (j : ℕ)
    (hj : j < 2 ^ k) (blind : ℕ → ℕ → F) {es es' : List (Expr F)}
    (hs : List.Forall₂ (Selectors.SameExpr cs cs' (2 ^ k) act polys) es es') {xs : List F}
    (ht : tuple cs' s es' j = some (xs.map .real)) :
    es.map (fun e => e.value id (rowEnv (2 ^ k) act
      (assignment (2 ^ k - (cs.blindingFactors + 1)) inst ops blind) j)) = xs := by
  have hf := mapM_forall₂_of _ _ _ ht
  clear ht
  induction hs generalizing xs with
  | nil =>
    rcases xs with _ | ⟨x, xs⟩
    · rfl
    · cases hf
  | cons he _ ih =>
    rcases xs with _ | ⟨x, xs⟩
    · cases hf
    · rw [List.map_cons, List.forall₂_cons] at hf
      rw [List.map_cons, ih hf.2, ← he.value _ j hj]
      congr 1
      exact h.sound cs' j _ (fun rot r hr => lookupRow_eq hk hr) blind _ he.covers x hf.1

/-- Tuples of fixed queries are real. -/
theorem tuple_fixed {cs : Cs F} {inst : List (List F)} {ops : List (Op F)}
    {polys : List (List F)} {s : Rows.Mock F cs.permutation n} (h : CellsOk cs n inst ops polys s)
    (cs' : Cs F) (es : List (Expr F)) (hes : ∀ e ∈ es, ∃ q, e = .fixed q) (j : ℕ)
    {t : List (Val F)} (ht : tuple cs' s es j = some t) : ∃ xs : List F, t = xs.map .real := by
  have hf := mapM_forall₂_of _ _ _ ht
  clear ht
  induction hf with
  | nil => exact ⟨[], rfl⟩
  | @cons e v es t hv _ ih =>
    obtain ⟨xs, rfl⟩ := ih fun e he => hes e (by simp [he])
    obtain ⟨q, rfl⟩ := hes e (by simp)
    change load _ _ _ _ q = some v at hv
    unfold load at hv
    obtain ⟨p, -, hv⟩ := Option.bind_eq_some_iff.1 hv
    obtain ⟨r, -, hv⟩ := Option.bind_eq_some_iff.1 hv
    obtain ⟨cell, hcell, rfl⟩ := Option.map_eq_some_iff.1 hv
    rw [h.fixed _ _ _ hcell fun _ _ => 0]
    exact ⟨_ :: xs, rfl⟩

/-- The value of a cell the permutation check compares. -/
theorem original_val {cs : Cs F} {inst : List (List F)} {ops : List (Op F)}
    {polys : List (List F)} {s : Rows.Mock F cs.permutation n} (h : CellsOk cs n inst ops polys s)
    {c : Column} {r : ℕ} (hfix : c.kind = .fixed → c.index < cs.numFixed)
    (hr : r < n - (cs.blindingFactors + 1)) (blind : ℕ → ℕ → F)
    {x : Rows.Cell F} (hx : original s c r = some x) :
    Val.ofCell x = .real (cellVal (assignment (n - (cs.blindingFactors + 1)) inst ops blind) c r) := by
  unfold original at hx
  unfold cellVal
  rcases hk : c.kind with _ | _ | _ <;> rw [hk] at hx <;> dsimp only at hx ⊢
  · rcases h.advice _ _ _ hx blind with ⟨-, h'⟩ | h'
    · omega
    · exact h'
  · rw [h.fixed _ _ _ hx blind]
    simp only [Selectors.extend, if_pos (hfix hk)]
  · obtain ⟨v, hv, rfl⟩ := Option.map_eq_some_iff.1 hx
    rw [← h.inst _ _ _ hv blind]
    rfl

theorem position_of_mem {c : Column} (h : c ∈ columns) : ∃ i, Copy.position columns c = some i := by
  rcases hp : Copy.position columns c with _ | i
  · exact absurd h (Copy.position_none hp)
  · exact ⟨i, rfl⟩

/-- C28: if the mock prover accepts, then for every choice of the values in the rows the circuit may
not use, the gates hold on all rows, the lookups on the usable rows, and the copy constraints. -/
theorem mock_accepts (cs : Cs F) (hr : Reach cs) (hb : ∀ g ∈ cs.gates, ∀ e ∈ g, Built e)
    (hcol : ∀ q ∈ cs.fixedQueries, q.1 < cs.numFixed)
    (hpcol : ∀ c ∈ cs.permutation, c.kind = .fixed → c.index < cs.numFixed)
    (simple : ℕ → Bool)
    (hflagG : ∀ g ∈ cs.gates, ∀ e ∈ g, ∀ s ∈ e.sels, s.simple = simple s.index)
    (hflagL : ∀ l ∈ cs.lookups, ∀ e ∈ l.input, ∀ s ∈ e.sels, s.simple = simple s.index)
    (hchar : ∀ i : ℕ, 0 < i → i ≤ cs.degree → (i : F) ≠ 0)
    (k : ℕ) (hk : k ≤ 64) (inst : List (List F)) (ops : List (Op F)) (infos : List GateInfo)
    (s₀ s : Rows.Mock F cs.permutation (2 ^ k)) (cs' : Cs F)
    (s' : Rows.Mock F cs.permutation (2 ^ k))
    (h0 : Mock.init cs (2 ^ k) inst = some s₀) (hrun : runOps Mock.step s₀ ops = some s)
    (hfin : finish cs s = some (cs', s')) (hv : verify cs' infos s' = some (.ok ()))
    (blind : ℕ → ℕ → F) : Satisfied cs (2 ^ k) inst ops blind := by
  have haft := mock_run cs _ inst ops s₀ s h0 hrun
  have hinv := Cs.reach_inv hr
  have hsellen : s.selectors.length = cs.numSelectors := by rw [haft.selectors]; simp [grid]
  obtain ⟨cs₁, polys, smap, hcomp, hnf, hpl, hG, hL, -, -, -, -⟩ := Selectors.compress_spec cs hr hb hcol
    s.selectors hsellen (2 ^ k)
    (by rw [haft.selectors]; intro a ha; simp only [grid, List.mem_map] at ha
        obtain ⟨_, _, rfl⟩ := ha; simp)
    simple hflagG hflagL hchar
  unfold finish at hfin
  rw [hcomp] at hfin
  simp only [Option.map_some, Option.some.injEq, Prod.mk.injEq] at hfin
  obtain ⟨rfl, rfl⟩ := hfin
  have hcells := cellsOk_of cs _ inst ops s haft polys hpl
  have htables := compress_tables hcomp (reach_tables hr)
  generalize hs' : ({ s with fixed := s.fixed ++ polys.map (polyCells (2 ^ k)) } :
    Rows.Mock F cs.permutation (2 ^ k)) = s' at hcells hv
  -- the selectors
  have hact : ∀ i < cs.numSelectors, ∀ j < 2 ^ k, (s.selectors.getD i []).getD j false =
      ops.any (enables (2 ^ k - (cs.blindingFactors + 1)) i j) := by
    intro i hi j hj
    rw [haft.selectors, List.getD_eq_getElem?_getD (l := grid _ _ _), grid_col hi]
    simp only [Option.getD_some, List.getD_eq_getElem?_getD, List.getElem?_map,
      List.getElem?_range hj, Option.map_some]
  have hval : ∀ e, cs.Covers e → ∀ j < 2 ^ k, e.value id (rowEnv (2 ^ k)
      (fun i j => (s.selectors.getD i []).getD j false)
      (assignment (2 ^ k - (cs.blindingFactors + 1)) inst ops blind) j) =
      exprVal (2 ^ k) (2 ^ k - (cs.blindingFactors + 1)) inst ops blind j e := by
    intro e he j hj
    refine Selectors.value_congr he ?_ (fun _ _ => rfl) rfl rfl
    intro sel hsel
    simp only [rowEnv, hact _ (Selectors.sel_index_lt he sel hsel) j hj]
  -- the four lists of errors
  unfold verify at hv
  obtain ⟨e₁, -, hv⟩ := Option.bind_eq_some_iff.1 hv
  obtain ⟨e₂, he₂, hv⟩ := Option.bind_eq_some_iff.1 hv
  obtain ⟨e₃, he₃, hv⟩ := Option.bind_eq_some_iff.1 hv
  obtain ⟨e₄, he₄, hv⟩ := Option.map_eq_some_iff.1 hv
  dsimp only at hv
  split_ifs at hv with hnil
  simp only [List.append_eq_nil_iff] at hnil
  obtain ⟨⟨⟨-, rfl⟩, rfl⟩, rfl⟩ := hnil
  clear hv
  refine ⟨?_, ?_, ?_⟩
  · intro g hg e he j hj
    have hcov := (hinv.gates g hg).2 e he
    obtain ⟨gi, hgi, rfl⟩ := List.mem_iff_getElem.1 hg
    have hgi' : gi < cs₁.gates.length := by rw [← hG.length_eq]; exact hgi
    have hG' := (List.forall₂_iff_get.1 hG).2 gi hgi hgi'
    simp only [List.get_eq_getElem] at hG'
    obtain ⟨pi, hpi, rfl⟩ := List.mem_iff_getElem.1 he
    have hpi' : pi < cs₁.gates[gi].length := by rw [← hG'.length_eq]; exact hpi
    have hE := (List.forall₂_iff_get.1 hG').2 pi hpi hpi'
    simp only [List.get_eq_getElem] at hE
    have hz := collect_nil he₂ _ (List.mem_flatMap.2 ⟨(cs₁.gates[gi], gi),
      List.mem_zipIdx_iff_getElem?.2 (List.getElem?_eq_getElem hgi'), List.mem_flatMap.2 ⟨j,
        List.mem_range.2 hj, List.mem_map.2 ⟨(cs₁.gates[gi][pi], pi),
          List.mem_zipIdx_iff_getElem?.2 (List.getElem?_eq_getElem hpi'), rfl⟩⟩⟩)
    obtain ⟨v, hv, hvf⟩ := Option.bind_eq_some_iff.1 hz
    rcases v with x | _
    · simp only [gateFailure] at hvf
      split_ifs at hvf with hx
      swap
      · obtain ⟨_, -, h⟩ := Option.map_eq_some_iff.1 hvf
        cases h
      subst hx
      have := hcells.sound cs₁ j _ (fun rot r hr => gateRow_eq hr) blind _ hE.covers 0 hv
      rw [hE.value _ j hj] at this
      rw [← hval _ hcov j hj]
      exact this
    · cases hvf
  · intro l hl j hj
    have hcovl := hinv.lookups l hl
    obtain ⟨li, hli, rfl⟩ := List.mem_iff_getElem.1 hl
    have hli' : li < cs₁.lookups.length := by rw [← hL.length_eq]; exact hli
    have hL' := (List.forall₂_iff_get.1 hL).2 li hli hli'
    simp only [List.get_eq_getElem] at hL'
    have hz := collect_nil he₃ _ (List.mem_map.2 ⟨(cs₁.lookups[li], li),
      List.mem_zipIdx_iff_getElem?.2 (List.getElem?_eq_getElem hli'), rfl⟩)
    obtain ⟨rows, hrows, hrn⟩ := Option.map_eq_some_iff.1 hz
    obtain rfl : rows = [] := by simpa using hrn
    obtain ⟨h1, h2, h3, h4⟩ := lookupCheck_some hrows
    obtain ⟨rows', h5, -, h6⟩ := lookupCheck_spec cs₁ s' cs₁.lookups[li] h1 h2 h3 h4
    rw [hrows] at h5
    cases h5
    rw [← hcells.usable] at hj
    have hex : ∃ j' < s'.usable, tuple cs₁ s' cs₁.lookups[li].table j' =
        tuple cs₁ s' cs₁.lookups[li].input j := by
      by_contra hcon
      push Not at hcon
      exact absurd ((h6 j).2 ⟨hj, hcon⟩) (by simp)
    obtain ⟨j', hj', heq⟩ := hex
    obtain ⟨t, ht⟩ := Option.ne_none_iff_exists'.1 (h4 j' hj')
    obtain ⟨xs, rfl⟩ := tuple_fixed hcells cs₁ _ (htables _ (List.getElem_mem hli')) j' ht
    rw [ht] at heq
    have hlt : ∀ i < s'.usable, i < 2 ^ k := by rw [hcells.usable]; omega
    have hi1 := tuple_vals hk hcells cs₁ _ j (hlt j hj) blind hL'.1 heq.symm
    have hi2 := tuple_vals hk hcells cs₁ _ j' (hlt j' hj') blind hL'.2 ht
    refine ⟨j', by rw [← hcells.usable]; exact hj', ?_⟩
    rw [List.map_congr_left (g := fun e => e.value id (rowEnv (2 ^ k)
      (fun i j => (s.selectors.getD i []).getD j false)
      (assignment (2 ^ k - (cs.blindingFactors + 1)) inst ops blind) j))
      fun e he => (hval e (hcovl.2.1 e he).1 j (hlt j hj)).symm, hi1]
    rw [List.map_congr_left (g := fun e => e.value id (rowEnv (2 ^ k)
      (fun i j => (s.selectors.getD i []).getD j false)
      (assignment (2 ^ k - (cs.blindingFactors + 1)) inst ops blind) j'))
      fun e he => (hval e (hcovl.2.2 e he).1 j' (hlt j' hj')).symm, hi2]
  · intro lc lr rc rr hop hlc hrc hlr hrr
    obtain ⟨li, hli⟩ := position_of_mem hlc
    obtain ⟨ri, hri⟩ := position_of_mem hrc
    have hli' := Copy.position_some hli
    have hri' := Copy.position_some hri
    obtain ⟨o, ho⟩ : ∃ o : Copy.Cell cs.permutation (2 ^ k) → Option (Rows.Cell F),
        ∀ c, o c = original s' cs.permutation[c.1] c.2 := ⟨_, fun _ => rfl⟩
    have hstep : ∀ c, ∃ a, o c = some a ∧ o (s'.perm.mapping c) = some a := by
      intro c
      have hz := collect_nil he₄ _ (List.mem_flatMap.2 ⟨c.1, List.mem_finRange _,
        List.mem_map.2 ⟨c.2, List.mem_finRange _, rfl⟩⟩)
      obtain ⟨a, ha, hz⟩ := Option.bind_eq_some_iff.1 hz
      obtain ⟨b, hb, hz⟩ := Option.map_eq_some_iff.1 hz
      split_ifs at hz with hab
      subst hab
      exact ⟨a, (ho c).trans ha, (ho _).trans hb⟩
    have hiter : ∀ m c, o c = o ((s'.perm.mapping)^[m] c) := by
      intro m
      induction m with
      | zero => intro c; rfl
      | succ m ih =>
        intro c
        obtain ⟨a, h1, h2⟩ := hstep c
        rw [Function.iterate_succ_apply, ← ih, h1, h2]
    have hspec := (Copy.run_spec (columns := cs.permutation) (n := 2 ^ k)
      (ops.filterMap (copyCall (2 ^ k - (cs.blindingFactors + 1))))).2
      (li, ⟨lr, by omega⟩) (ri, ⟨rr, by omega⟩)
    obtain ⟨m, hm⟩ := hspec.2 (.rel _ _ ⟨⟨lc, lr, rc, rr⟩,
      List.mem_filterMap.2 ⟨_, hop, by simp [copyCall, hlr, hrr]⟩,
      ⟨hli'.1, hli'.2, rfl⟩, ⟨hri'.1, hri'.2, rfl⟩⟩)
    rw [← hcells.perm] at hm
    have h1 := hiter m (li, ⟨lr, by omega⟩)
    rw [hm] at h1
    obtain ⟨a, ha, -⟩ := hstep (li, ⟨lr, by omega⟩)
    have hb := h1.symm.trans ha
    rw [ho] at ha hb
    dsimp only at ha hb
    rw [hli'.1] at ha
    rw [hri'.1] at hb
    have v1 := original_val hcells (hpcol lc hlc) hlr blind ha
    have v2 := original_val hcells (hpcol rc hrc) hrr blind hb
    rw [v1] at v2
    exact Val.real.inj v2

end Verif.Mock
