import Verif.Plonk.Lemmas

/-!
# One circuit: prover and verifier expressions agree, and vanish on a satisfying assignment
-/

namespace Verif.Plonk

open Verif.Expr Verif.ExprEval
open Verif.Cs (Cs Column Lookup)
open Verif.Domain (Domain evalsOn)
open Verif.Evaluator (Ast denote LeavesOk LeavesOkList)
open Verif.PolyArith (evalPolynomial toPoly)
open Verif.Fft (tab)
open Polynomial (C X)

variable {F : Type*} [Field F] {d : Domain F}

/-- Leaves bound to coefficient lists. -/
abbrev Bnd (pc : ℕ → List F) (polys : List (List F)) (leaves : List ℕ) : Prop :=
  List.Forall₂ (fun p i => pc i = p) polys leaves

theorem Bnd.getD {pc : ℕ → List F} {polys : List (List F)} {leaves : List ℕ}
    (h : Bnd pc polys leaves) {c : ℕ} (hc : c < polys.length) :
    pc (leaves.getD c 0) = polys.getD c [] := forall₂_getD h c hc [] 0

theorem Bnd.map {pc : ℕ → List F} {polys : List (List F)} {leaves : List ℕ}
    (h : Bnd pc polys leaves) : leaves.map pc = polys := by
  induction h with
  | nil => rfl
  | cons h _ ih => rw [List.map_cons, h, ih]

theorem queryEvals_eq (hd : d.Valid) {pc : ℕ → List F} {polys : List (List F)} {leaves : List ℕ}
    (h : Bnd pc polys leaves) (x : F) (queries : List (ℕ × ℤ))
    (hq : ∀ q ∈ queries, q.1 < polys.length) :
    queryEvals d x polys queries
      = some (queries.map fun q => (toPoly (pc (leaves.getD q.1 0))).eval (d.omega ^ q.2 * x)) := by
  refine Verif.Evaluator.mapM_eq_some _ ?_
  intro q hm
  have hlt := hq q hm
  rw [List.getElem?_eq_getElem hlt, Option.map_some, evalPolynomial_rotate hd, h.getD hlt,
    List.getD_eq_getElem _ _ hlt]

/-- The columns of a circuit as functions of the row. -/
def cols (fixed : List (List F)) (w : Circuit F) : Cols F :=
  ⟨fun c j => (fixed.getD c []).getD j 0, fun c j => (w.advice.getD c []).getD j 0,
    fun c j => (w.inst.getD c []).getD j 0⟩

/-- Everything known of one circuit after the prover ran. -/
structure Bound (d : Domain F) (cs : Cs F) (ch : Challenges F) (pc : ℕ → List F) (N : ℕ)
    (fp : List (List F)) (cf : List ℕ) (pp : List (List F)) (perm : List ℕ)
    (l0 lBlind lLast : ℕ) (ap ip : List (List F)) (c : Leaves) (products : List (Product F))
    (lookups : List (Permuted F × Product F)) : Prop where
  hF : Bnd pc fp cf
  fixedLen : fp.length = cs.numFixed
  hA : Bnd pc ap c.advice
  adviceLen : ap.length = cs.numAdvice
  hI : Bnd pc ip c.inst
  instLen : ip.length = cs.numInstance
  hP : Bnd pc pp perm
  permLen : pp.length = cs.permutation.length
  hZ : ∀ p ∈ products, pc p.leaf = p.poly
  hK : List.Forall₂ (fun l (p : Permuted F × Product F) =>
      Verif.Lookup.compressCosetAst ch.theta cf c.advice c.inst l.input = some p.1.inputCoset ∧
      Verif.Lookup.compressCosetAst ch.theta cf c.advice c.inst l.table = some p.1.tableCoset ∧
      pc p.1.aLeaf = p.1.aPoly ∧ pc p.1.sLeaf = p.1.sPoly ∧ pc p.2.leaf = p.2.poly)
      cs.lookups lookups
  ltF : ∀ i ∈ cf, i < N
  ltA : ∀ i ∈ c.advice, i < N
  ltI : ∀ i ∈ c.inst, i < N
  ltP : ∀ i ∈ perm, i < N
  ltL : l0 < N ∧ lBlind < N ∧ lLast < N
  ltZ : ∀ p ∈ products, p.leaf < N
  ltK : ∀ p ∈ lookups, p.1.aLeaf < N ∧ p.1.sLeaf < N ∧ p.2.leaf < N

variable {cs : Cs F} {ch : Challenges F} {pc : ℕ → List F} {N : ℕ} {fp : List (List F)}
  {cf : List ℕ} {pp : List (List F)} {perm : List ℕ} {l0 lBlind lLast : ℕ} {ap ip : List (List F)}
  {c : Leaves} {products : List (Product F)} {lookups : List (Permuted F × Product F)}

theorem Bound.colsLt (hb : Bound d cs ch pc N fp cf pp perm l0 lBlind lLast ap ip c products lookups)
    {n : ℕ} (hr : Ready cs n) {e : Expr F} (he : cs.Covers e) :
    ColsLt cf.length c.advice.length c.inst.length e := by
  rw [← hb.hF.length_eq, ← hb.hA.length_eq, ← hb.hI.length_eq, hb.fixedLen, hb.adviceLen,
    hb.instLen]
  exact hr.colsLt he

theorem three_le_degree (cs : Cs F) : 3 ≤ cs.degree := by
  rw [Cs.degree, Verif.Cs.permRequiredDegree]; omega

theorem colLeaf_lt (hb : Bound d cs ch pc N fp cf pp perm l0 lBlind lLast ap ip c products lookups)
    {n : ℕ} (hr : Ready cs n) : ∀ k ∈ cs.permutation, colLeaf cf c k < N := by
  intro k hk
  have hok := (hr.perm k hk).1
  have key : ∀ (l : List ℕ) (i : ℕ), i < l.length → (∀ j ∈ l, j < N) → l.getD i 0 < N := by
    intro l i hi h
    rw [List.getD_eq_getElem _ _ hi]
    exact h _ (List.getElem_mem hi)
  rcases k with ⟨_ | _ | _, i⟩ <;> simp only [colOk, decide_eq_true_eq] at hok <;>
    simp only [colLeaf]
  · exact key _ _ (by rw [← hb.hA.length_eq, hb.adviceLen]; exact hok) hb.ltA
  · exact key _ _ (by rw [← hb.hF.length_eq, hb.fixedLen]; exact hok) hb.ltF
  · exact key _ _ (by rw [← hb.hI.length_eq, hb.instLen]; exact hok) hb.ltI

/-- The prover's expressions exist, and their leaves are in range. -/
theorem prover_some (hb : Bound d cs ch pc N fp cf pp perm l0 lBlind lLast ap ip c products lookups)
    {n : ℕ} (hr : Ready cs n) (hn : 1 ≤ n) (hbf : cs.blindingFactors + 1 ≤ n) (delta : F) :
    ∃ gs, (cs.gates.flatten.mapM fun (e : Expr F) => e.evaluate (astAlg cf c.advice c.inst))
        = some gs ∧
      proverExpressions cs delta ch cf c perm l0 lBlind lLast products lookups
        = some (gs ++ Verif.Permutation.construct (cs.degree - 2) cs.blindingFactors
            (products.map (·.leaf)) cs.permutation perm (colLeaf cf c) l0 lBlind lLast ch.beta
            ch.gamma delta
          ++ lookups.flatMap fun (p : Permuted F × Product F) =>
            Verif.Lookup.construct p.2.leaf p.1.aLeaf p.1.sLeaf p.1.inputCoset p.1.tableCoset
              ch.beta ch.gamma l0 lBlind lLast) ∧
      ∀ t ∈ gs ++ Verif.Permutation.construct (cs.degree - 2) cs.blindingFactors
            (products.map (·.leaf)) cs.permutation perm (colLeaf cf c) l0 lBlind lLast ch.beta
            ch.gamma delta
          ++ lookups.flatMap fun (p : Permuted F × Product F) =>
            Verif.Lookup.construct p.2.leaf p.1.aLeaf p.1.sLeaf p.1.inputCoset p.1.tableCoset
              ch.beta ch.gamma l0 lBlind lLast, LeavesOk N n t := by
  obtain ⟨z, z1, z2, z3⟩ := mapM_zip
    (f := fun (e : Expr F) => e.evaluate (astAlg cf c.advice c.inst))
    (R := fun e t => e.evaluate (astAlg cf c.advice c.inst) = some t) cs.gates.flatten (by
      intro e he
      obtain ⟨h1, h2⟩ := hr.gates e he
      obtain ⟨t, ht, -⟩ := astAlg_eq (1 : F) (fun _ => 0) cf c.advice c.inst (hb.colsLt hr h1) h2
      exact ⟨t, ht, ht⟩)
  refine ⟨_, z2, by rw [proverExpressions, z2]; rfl, ?_⟩
  have h3 := three_le_degree cs
  intro t ht
  simp only [List.mem_append] at ht
  rcases ht with (ht | ht) | ht
  · obtain ⟨x, hx, rfl⟩ := List.mem_map.1 ht
    have hxm : x.1 ∈ cs.gates.flatten := by rw [← z1]; exact List.mem_map_of_mem hx
    exact hr.leavesOk hb.ltF hb.ltA hb.ltI (hr.gates _ hxm).1 (z3 x hx)
  · refine permutation_leavesOk (by omega) hn hbf ?_ (colLeaf_lt hb hr) hb.ltP hb.ltL.1 hb.ltL.2.1
      hb.ltL.2.2 _ _ _ t ht
    intro i hi
    obtain ⟨p, hp, rfl⟩ := List.mem_map.1 hi
    exact hb.ltZ p hp
  · obtain ⟨p, hp, ht⟩ := List.mem_flatMap.1 ht
    obtain ⟨l, hl, h1, h2, -⟩ := forall₂_right hb.hK p hp
    have hlt := hb.ltK p hp
    have hok := hr.lookups l hl
    exact lookup_leavesOk hn hlt.2.2 hlt.1 hlt.2.1 hb.ltL.1 hb.ltL.2.1 hb.ltL.2.2
      (compressCoset_leavesOk hr hb.ltF hb.ltA hb.ltI _ (fun e he => (hok e (by simp [he])).1) h1)
      (compressCoset_leavesOk hr hb.ltF hb.ltA hb.ltI _ (fun e he => (hok e (by simp [he])).1) h2)
      _ _ t ht

/-- The evaluations the verifier holds, in terms of the bound polynomials. -/
theorem circuitEvals_eq (hd : d.Valid)
    (hb : Bound d cs ch pc N fp cf pp perm l0 lBlind lLast ap ip c products lookups) {n : ℕ}
    (hr : Ready cs n) (x : F) :
    circuitEvals d cs x ⟨ap, ip, products.map (·.poly),
        lookups.map fun (p : Permuted F × Product F) => (p.2.poly, p.1.aPoly, p.1.sPoly)⟩
      = some ⟨cs.adviceQueries.map fun q =>
            (toPoly (pc (c.advice.getD q.1 0))).eval (d.omega ^ q.2 * x),
          cs.instanceQueries.map fun q =>
            (toPoly (pc (c.inst.getD q.1 0))).eval (d.omega ^ q.2 * x),
          Verif.Permutation.proofEvals d.omega (fun i => toPoly (pc i)) cs.blindingFactors x
            (products.map (·.leaf)),
          lookups.map fun (p : Permuted F × Product F) =>
            ⟨(toPoly (pc p.2.leaf)).eval x, (toPoly (pc p.2.leaf)).eval (d.omega * x),
              (toPoly (pc p.1.aLeaf)).eval x, (toPoly (pc p.1.aLeaf)).eval (d.omega⁻¹ * x),
              (toPoly (pc p.1.sLeaf)).eval x⟩⟩ := by
  rw [circuitEvals, queryEvals_eq hd hb.hI x _ (fun q hq => by
      rw [hb.instLen]; exact (hr.inst q hq).1), Option.bind_some,
    queryEvals_eq hd hb.hA x _ (fun q hq => by rw [hb.adviceLen]; exact (hr.advice q hq).1),
    Option.map_some]
  congr 2
  · rw [Verif.Permutation.proofEvals]
    apply List.ext_getElem
    · simp
    · intro i h1 h2
      have hi : i < products.length := by simpa using h1
      have hp := hb.hZ _ (List.getElem_mem hi)
      simp only [List.getElem_mapIdx, List.getElem_map, List.length_map, hp,
        evalPolynomial_rotate hd, Verif.PolyArith.evalPolynomial_eq, zpow_one]
  · rw [List.map_map]
    refine List.map_congr_left ?_
    intro p hp
    obtain ⟨l, hl, -, -, h3, h4, h5⟩ := forall₂_right hb.hK p hp
    simp only [Function.comp_apply, h3, h4, h5, evalPolynomial_rotate hd,
      Verif.PolyArith.evalPolynomial_eq, zpow_one, zpow_neg_one]

theorem findQuery_of_mem {q : ℕ × ℤ} {l : List (ℕ × ℤ)} (h : q ∈ l) :
    ∃ i, Verif.Cs.findQuery q 0 l = some i ∧ l[i]? = some q := by
  rcases hf : Verif.Cs.findQuery q 0 l with _ | i
  · exact absurd h (Verif.Cs.findQuery_none hf)
  · exact ⟨i, rfl, Verif.Cs.findQuery_some hf⟩

/-- The verifier's expressions at `x` are the prover's polynomials at `x`. -/
theorem verifier_eq (hd : d.Valid)
    (hb : Bound d cs ch pc N fp cf pp perm l0 lBlind lLast ap ip c products lookups) {n : ℕ}
    (hr : Ready cs n) (delta x : F) {asts : List (Ast F)}
    (ha : proverExpressions cs delta ch cf c perm l0 lBlind lLast products lookups = some asts) :
    ∃ fe e, queryEvals d x fp cs.fixedQueries = some fe ∧
      circuitEvals d cs x ⟨ap, ip, products.map (·.poly),
        lookups.map fun (p : Permuted F × Product F) => (p.2.poly, p.1.aPoly, p.1.sPoly)⟩ = some e ∧
      verifierExpressions cs delta ch x fe (pp.map fun p => evalPolynomial p x)
        ((toPoly (pc l0)).eval x, (toPoly (pc lLast)).eval x, (toPoly (pc lBlind)).eval x) e
      = some (asts.map fun a => (denote d.omega (fun i => toPoly (pc i)) a).eval x) := by
  refine ⟨_, _, queryEvals_eq hd hb.hF x _ (fun q hq => by
      rw [hb.fixedLen]; exact (hr.fixed q hq).1), circuitEvals_eq hd hb hr x, ?_⟩
  rw [proverExpressions, Option.map_eq_some_iff] at ha
  obtain ⟨gs, hgs, rfl⟩ := ha
  have h3 := three_le_degree cs
  -- gates
  have hgates : (cs.gates.flatten.mapM fun (g : Expr F) => g.evaluate (evalAlg
      (cs.fixedQueries.map fun q => (toPoly (pc (cf.getD q.1 0))).eval (d.omega ^ q.2 * x))
      (cs.adviceQueries.map fun q => (toPoly (pc (c.advice.getD q.1 0))).eval (d.omega ^ q.2 * x))
      (cs.instanceQueries.map fun q => (toPoly (pc (c.inst.getD q.1 0))).eval (d.omega ^ q.2 * x))))
      = some (gs.map fun a => (denote d.omega (fun i => toPoly (pc i)) a).eval x) := by
    have hall := mapM_inv hgs
    have hcov : ∀ e ∈ cs.gates.flatten, cs.Covers e ∧ e.sels = [] := hr.gates
    generalize cs.gates.flatten = es at hall hcov
    clear hgs
    induction hall with
    | nil => rfl
    | cons h _ ih =>
      obtain ⟨h1, h2⟩ := hcov _ List.mem_cons_self
      obtain ⟨t, ht, hte⟩ := ast_eval_eq cs d.omega (fun i => toPoly (pc i)) cf c.advice c.inst h1
        (hb.colsLt hr h1) h2 x
      rw [h] at ht
      obtain rfl := Option.some.inj ht
      rw [List.mapM_cons, hte, ih fun e he => hcov e (List.mem_cons_of_mem _ he)]
      rfl
  rw [verifierExpressions, hgates, Option.bind_some]
  -- columns of the permutation
  have hcol : ∀ k ∈ cs.permutation, colEval cs
      (cs.fixedQueries.map fun q => (toPoly (pc (cf.getD q.1 0))).eval (d.omega ^ q.2 * x))
      ⟨cs.adviceQueries.map fun q => (toPoly (pc (c.advice.getD q.1 0))).eval (d.omega ^ q.2 * x),
        cs.instanceQueries.map fun q => (toPoly (pc (c.inst.getD q.1 0))).eval (d.omega ^ q.2 * x),
        Verif.Permutation.proofEvals d.omega (fun i => toPoly (pc i)) cs.blindingFactors x
            (products.map (·.leaf)),
        lookups.map fun (p : Permuted F × Product F) =>
            ⟨(toPoly (pc p.2.leaf)).eval x, (toPoly (pc p.2.leaf)).eval (d.omega * x),
              (toPoly (pc p.1.aLeaf)).eval x, (toPoly (pc p.1.aLeaf)).eval (d.omega⁻¹ * x),
              (toPoly (pc p.1.sLeaf)).eval x⟩⟩ k
      = some ((toPoly (pc (colLeaf cf c k))).eval x) := by
    intro k hk
    have hq := (hr.perm k hk).2
    rcases k with ⟨_ | _ | _, i⟩ <;> simp only at hq <;> obtain ⟨t, ht, hg⟩ := findQuery_of_mem hq <;>
      simp [colEval, Cs.getAnyQueryIndex, ht, hg, colLeaf]
  rw [if_pos (by
    rw [List.all_eq_true]
    intro k hk
    rw [hcol k hk]; rfl)]
  have hpe : (pp.map fun p => evalPolynomial p x) = perm.map fun i => (toPoly (pc i)).eval x := by
    rw [← hb.hP.map, List.map_map]
    exact List.map_congr_left fun i _ => Verif.PolyArith.evalPolynomial_eq _ _
  rw [hpe, expressions_congr (by omega) _ _ _ _
    (fun k => (toPoly (pc (colLeaf cf c k))).eval x) (fun k hk => by rw [hcol k hk]; rfl)]
  rw [Verif.Permutation.expressions_eq_construct (P := fun i => toPoly (pc i)) (by omega),
    Option.bind_some]
  -- lookups
  have hlk : ((lookups.map fun (p : Permuted F × Product F) =>
        (⟨(toPoly (pc p.2.leaf)).eval x, (toPoly (pc p.2.leaf)).eval (d.omega * x),
              (toPoly (pc p.1.aLeaf)).eval x, (toPoly (pc p.1.aLeaf)).eval (d.omega⁻¹ * x),
              (toPoly (pc p.1.sLeaf)).eval x⟩ : Verif.Lookup.Evals F)).zip cs.lookups).mapM
      (fun (q : Verif.Lookup.Evals F × Lookup F) =>
      Verif.Lookup.expressions q.2 q.1 ((toPoly (pc l0)).eval x) ((toPoly (pc lLast)).eval x)
        ((toPoly (pc lBlind)).eval x) ch.theta ch.beta ch.gamma
        (cs.fixedQueries.map fun q => (toPoly (pc (cf.getD q.1 0))).eval (d.omega ^ q.2 * x))
        (cs.adviceQueries.map fun q => (toPoly (pc (c.advice.getD q.1 0))).eval (d.omega ^ q.2 * x))
        (cs.instanceQueries.map fun q =>
          (toPoly (pc (c.inst.getD q.1 0))).eval (d.omega ^ q.2 * x)))
      = some (lookups.map fun (p : Permuted F × Product F) =>
          (Verif.Lookup.construct p.2.leaf p.1.aLeaf p.1.sLeaf p.1.inputCoset p.1.tableCoset ch.beta
            ch.gamma l0 lBlind lLast).map
            fun a => (denote d.omega (fun i => toPoly (pc i)) a).eval x) := by
    have hall := hb.hK
    have hok : ∀ l ∈ cs.lookups, Verif.Lookup.Ok cs l := hr.lookups
    have hcols : ∀ e, cs.Covers e → ColsLt cf.length c.advice.length c.inst.length e :=
      fun e he => hb.colsLt hr he
    generalize cs.lookups = ls at hall hok
    clear hgs hb hgates hcol hpe
    induction hall with
    | nil => rfl
    | cons h _ ih =>
      have h0 := hok _ List.mem_cons_self
      obtain ⟨ti, tt, e1, e2, e3⟩ := Verif.Lookup.expressions_eq_construct (omega := d.omega)
        (P := fun i => toPoly (pc i)) cs _ h0 cf c.advice c.inst (fun e he => hcols e (h0 e he).1)
        _ _ _ l0 lBlind lLast ch.theta ch.beta ch.gamma x
      rw [h.1] at e1
      rw [h.2.1] at e2
      obtain rfl := Option.some.inj e1
      obtain rfl := Option.some.inj e2
      rw [List.map_cons, List.zip_cons_cons, List.mapM_cons, e3,
        ih fun l hl => hok l (List.mem_cons_of_mem _ hl)]
      rfl
  simp only
  rw [hlk]
  simp only [Option.map_some, List.map_append, List.map_flatMap]
  rw [List.flatMap_def]

/-- Every constraint polynomial vanishes on the domain when the rows satisfy the constraints. -/
theorem vanish (hd : d.Valid)
    (hb : Bound d cs ch pc N fp cf pp perm l0 lBlind lLast ap ip c products lookups)
    (hr : Ready cs d.n) (hbf : cs.blindingFactors + 1 < d.n) {fv perms : List (List F)}
    {w : Circuit F} (hfv : fp.map (rows d) = fv) (hap : ap.map (rows d) = w.advice)
    (hip : ip.map (rows d) = w.inst) (hpp : pp.map (rows d) = perms) (delta : F)
    (h0 : ∀ j < d.n, (toPoly (pc l0)).eval (d.omega ^ j) = if j = 0 then 1 else 0)
    (hl : ∀ j < d.n, (toPoly (pc lLast)).eval (d.omega ^ j)
      = if j = d.n - (cs.blindingFactors + 1) then 1 else 0)
    (hbl : ∀ j < d.n, (toPoly (pc lBlind)).eval (d.omega ^ j)
      = if d.n - cs.blindingFactors ≤ j then 1 else 0)
    (hgate : ∀ j < d.n, ∀ e ∈ cs.gates.flatten, rowVal d.n (cols fv w) j e = 0)
    (hnum : products.length = Verif.Permutation.numSets cs.degree cs.permutation)
    (hperm : Verif.Permutation.Satisfied d.omega delta ch.beta ch.gamma d.n cs.blindingFactors
      cs.degree (colValues fv w) cs.permutation perms
      fun k j => ((products.map fun p => rows d p.poly).getD k []).getD j 0)
    (hlook : List.Forall₂ (fun l (p : Permuted F × Product F) =>
      Verif.Lookup.Satisfied cs l d.n cs.blindingFactors ch.theta ch.beta ch.gamma (cols fv w)
        (fun j => (rows d p.1.aPoly).getD j 0) (fun j => (rows d p.1.sPoly).getD j 0)
        (fun j => (rows d p.2.poly).getD j 0)) cs.lookups lookups) {asts : List (Ast F)}
    (ha : proverExpressions cs delta ch cf c perm l0 lBlind lLast products lookups = some asts) :
    ∀ a ∈ asts, ∀ j < d.n, (denote d.omega (fun i => toPoly (pc i)) a).eval (d.omega ^ j) = 0 := by
  rw [proverExpressions, Option.map_eq_some_iff] at ha
  obtain ⟨gs, hgs, rfl⟩ := ha
  have h3 := three_le_degree cs
  intro a ha j hj
  have hz : ∀ p : List F, (toPoly p).eval (d.omega ^ j) = (rows d p).getD j 0 := by
    intro p
    have := eval_row hd p j 0
    rwa [zpow_zero, one_mul, rotRow_zero hj] at this
  have colsF : ∀ k < cs.numFixed, ∀ r : ℤ, (toPoly (pc (cf.getD k 0))).eval (d.omega ^ r * d.omega ^ j)
      = (fv.getD k []).getD (rotRow d.n j r) 0 := by
    intro k hk r
    have hk' : k < fp.length := by rw [hb.fixedLen]; exact hk
    rw [eval_row hd, hb.hF.getD hk', ← hfv, List.getD_eq_getElem _ _ hk',
      List.getD_eq_getElem (fp.map (rows d)) _ (by simpa using hk'), List.getElem_map]
  have colsA : ∀ k < cs.numAdvice, ∀ r : ℤ,
      (toPoly (pc (c.advice.getD k 0))).eval (d.omega ^ r * d.omega ^ j)
      = (w.advice.getD k []).getD (rotRow d.n j r) 0 := by
    intro k hk r
    have hk' : k < ap.length := by rw [hb.adviceLen]; exact hk
    rw [eval_row hd, hb.hA.getD hk', ← hap, List.getD_eq_getElem _ _ hk',
      List.getD_eq_getElem (ap.map (rows d)) _ (by simpa using hk'), List.getElem_map]
  have colsI : ∀ k < cs.numInstance, ∀ r : ℤ,
      (toPoly (pc (c.inst.getD k 0))).eval (d.omega ^ r * d.omega ^ j)
      = (w.inst.getD k []).getD (rotRow d.n j r) 0 := by
    intro k hk r
    have hk' : k < ip.length := by rw [hb.instLen]; exact hk
    rw [eval_row hd, hb.hI.getD hk', ← hip, List.getD_eq_getElem _ _ hk',
      List.getD_eq_getElem (ip.map (rows d)) _ (by simpa using hk'), List.getElem_map]
  have qF : (cs.fixedQueries.map fun q =>
        (toPoly (pc (cf.getD q.1 0))).eval (d.omega ^ q.2 * d.omega ^ j))
      = cs.fixedQueries.map fun q => (cols fv w).fixed q.1 (rotRow d.n j q.2) :=
    List.map_congr_left fun q hq => colsF _ (hr.fixed q hq).1 _
  have qA : (cs.adviceQueries.map fun q =>
        (toPoly (pc (c.advice.getD q.1 0))).eval (d.omega ^ q.2 * d.omega ^ j))
      = cs.adviceQueries.map fun q => (cols fv w).advice q.1 (rotRow d.n j q.2) :=
    List.map_congr_left fun q hq => colsA _ (hr.advice q hq).1 _
  have qI : (cs.instanceQueries.map fun q =>
        (toPoly (pc (c.inst.getD q.1 0))).eval (d.omega ^ q.2 * d.omega ^ j))
      = cs.instanceQueries.map fun q => (cols fv w).inst q.1 (rotRow d.n j q.2) :=
    List.map_congr_left fun q hq => colsI _ (hr.inst q hq).1 _
  simp only [List.mem_append] at ha
  rcases ha with (ha | ha) | ha
  · obtain ⟨e, he, hev⟩ := forall₂_right (mapM_inv hgs) a ha
    obtain ⟨h1, h2⟩ := hr.gates e he
    obtain ⟨t, ht, hte⟩ := ast_eval_eq cs d.omega (fun i => toPoly (pc i)) cf c.advice c.inst h1
      (hb.colsLt hr h1) h2 (d.omega ^ j)
    rw [hev] at ht
    obtain rfl := Option.some.inj ht
    rw [qF, qA, qI, evalAlg_eq cs (fun k r => (cols fv w).fixed k (rotRow d.n j r))
      (fun k r => (cols fv w).advice k (rotRow d.n j r))
      (fun k r => (cols fv w).inst k (rotRow d.n j r)) h1 h2] at hte
    rw [← Option.some.inj hte]
    exact hgate j hj e he
  · obtain ⟨es, hes, hzero⟩ := hperm j hj
    have hx := Verif.Permutation.expressions_eq_construct (omega := d.omega)
      (P := fun i => toPoly (pc i)) (L := cs.degree - 2) (by omega) cs.blindingFactors
      (products.map (·.leaf)) cs.permutation perm (colLeaf cf c) l0 lBlind lLast ch.beta ch.gamma
      delta (d.omega ^ j)
    rw [h0 j hj, hl j hj, hbl j hj] at hx
    have hsets : Verif.Permutation.proofEvals d.omega (fun i => toPoly (pc i)) cs.blindingFactors
        (d.omega ^ j) (products.map (·.leaf))
        = Verif.Permutation.rowEvals (Verif.Permutation.numSets cs.degree cs.permutation) d.n
          cs.blindingFactors (fun k j => ((products.map fun p => rows d p.poly).getD k []).getD j 0)
          j := by
      rw [Verif.Permutation.proofEvals, Verif.Permutation.rowEvals, ← hnum]
      apply List.ext_getElem
      · simp
      · intro i h1 h2
        have hi : i < products.length := by simpa using h1
        have hp := hb.hZ _ (List.getElem_mem hi)
        have hr1 : rotRow d.n j 1 = (j + 1) % d.n := by
          have e1 : ((j : ℤ) + 1) = ((j + 1 : ℕ) : ℤ) := by simp
          rw [rotRow, e1, ← Int.natCast_mod, Int.toNat_natCast]
        have hr2 : rotRow d.n j (-((cs.blindingFactors : ℤ) + 1))
            = (j + (d.n - (cs.blindingFactors + 1))) % d.n := by
          rw [rotRow]
          have e1 : ((j : ℤ) + -((cs.blindingFactors : ℤ) + 1)) % d.n
              = ((j + (d.n - (cs.blindingFactors + 1)) : ℕ) : ℤ) % d.n := by
            have e2 : ((j + (d.n - (cs.blindingFactors + 1)) : ℕ) : ℤ)
                = ((j : ℤ) + -((cs.blindingFactors : ℤ) + 1)) + d.n := by omega
            rw [e2, Int.add_emod_right]
          rw [e1, ← Int.natCast_mod, Int.toNat_natCast]
        have e1 := eval_row hd products[i].poly j 1
        have e2 := eval_row hd products[i].poly j (-((cs.blindingFactors : ℤ) + 1))
        rw [zpow_one, hr1] at e1
        rw [hr2] at e2
        have hg : (products.map fun p => rows d p.poly).getD i [] = rows d products[i].poly := by
          rw [List.getD_eq_getElem _ _ (by simpa using hi), List.getElem_map]
        simp only [List.getElem_mapIdx, List.getElem_map, List.length_map, hp, List.getElem_range,
          hg, hz, e1, e2]
    have hpe : (perm.map fun i => (toPoly (pc i)).eval (d.omega ^ j)) = perms.map (·.getD j 0) := by
      rw [← hpp, ← hb.hP.map, List.map_map, List.map_map]
      exact List.map_congr_left fun i _ => hz _
    rw [hsets, hpe, expressions_congr (by omega) _ _ _ _ (fun k => (colValues fv w k).getD j 0)
      (by
        intro k hk
        have hok := (hr.perm k hk).1
        rcases k with ⟨_ | _ | _, i⟩ <;> simp only [colOk, decide_eq_true_eq] at hok <;>
          simp only [colLeaf, colValues]
        · have := colsA _ hok 0
          rwa [zpow_zero, one_mul, rotRow_zero hj] at this
        · have := colsF _ hok 0
          rwa [zpow_zero, one_mul, rotRow_zero hj] at this
        · have := colsI _ hok 0
          rwa [zpow_zero, one_mul, rotRow_zero hj] at this)] at hx
    rw [hes] at hx
    refine hzero _ ?_
    rw [Option.some.inj hx]
    exact List.mem_map_of_mem ha
  · obtain ⟨p, hp, ha⟩ := List.mem_flatMap.1 ha
    obtain ⟨i, hi, rfl⟩ := List.getElem_of_mem hp
    have hil : i < cs.lookups.length := by rw [hlook.length_eq]; exact hi
    have hs := hlook.get hil hi
    have hk := hb.hK.get hil hi
    simp only [List.get_eq_getElem] at hs hk
    obtain ⟨k1, k2, k3, k4, k5⟩ := hk
    have hok := hr.lookups _ (List.getElem_mem hil)
    obtain ⟨ti, tt, e1, e2, e3⟩ := Verif.Lookup.expressions_eq_construct (omega := d.omega)
        (P := fun i => toPoly (pc i)) cs _ hok cf c.advice c.inst
        (fun e he => hb.colsLt hr (hok e he).1) lookups[i].2.leaf lookups[i].1.aLeaf
        lookups[i].1.sLeaf l0 lBlind lLast ch.theta ch.beta ch.gamma (d.omega ^ j)
    rw [k1] at e1
    rw [k2] at e2
    obtain rfl := Option.some.inj e1
    obtain rfl := Option.some.inj e2
    obtain ⟨es, hes, hzero⟩ := hs j hj
    have r0 := rotRow_zero hj
    have ez := eval_row hd lookups[i].2.poly j 1
    have ea := eval_row hd lookups[i].1.aPoly j (-1)
    rw [zpow_one] at ez
    rw [zpow_neg_one] at ea
    rw [qF, qA, qI, h0 j hj, hl j hj, hbl j hj, k3, k4, k5, hz, ez, hz, ea, hz] at e3
    simp only [r0] at hes
    rw [hes] at e3
    refine hzero _ ?_
    rw [Option.some.inj e3]
    exact List.mem_map_of_mem ha

end Verif.Plonk
