import Verif.Plonk.Props

/-!
# One circuit, dishonest prover: the verifier's expressions are polynomials that vanish on the
domain only if the rows satisfy the constraints
-/

namespace Verif.Plonk

open Verif.Expr Verif.ExprEval
open Verif.Cs (Cs Column Lookup)
open Verif.Domain (Domain evalsOn)
open Verif.Evaluator (Ast denote LeavesOk LeavesOkList)
open Verif.PolyArith (evalPolynomial toPoly)
open Polynomial (C X)

variable {F : Type*} [Field F] {d : Domain F}

/-- Specification: the rows satisfy every gate, and the permutation and lookup columns satisfy
their constraints, for the given challenges. -/
structure RowsHold (d : Domain F) (cs : Cs F) (delta : F) (ch : Challenges F)
    (fv perms : List (List F)) (w : Circuit F) (zs : List (List F))
    (lookups : List (List F × List F × List F)) : Prop where
  gates : ∀ j < d.n, ∀ e ∈ cs.gates.flatten, rowVal d.n (cols fv w) j e = 0
  permutation : Verif.Permutation.Satisfied d.omega delta ch.beta ch.gamma d.n cs.blindingFactors
      cs.degree (colValues fv w) cs.permutation perms fun k j => (zs.getD k []).getD j 0
  lookups : List.Forall₂ (fun l (p : List F × List F × List F) =>
      Verif.Lookup.Satisfied cs l d.n cs.blindingFactors ch.theta ch.beta ch.gamma (cols fv w)
        (fun j => p.2.1.getD j 0) (fun j => p.2.2.getD j 0) (fun j => p.1.getD j 0))
      cs.lookups lookups

variable {cs : Cs F} {ch : Challenges F} {pc : ℕ → List F} {N : ℕ} {fp : List (List F)}
  {cf : List ℕ} {pp : List (List F)} {perm : List ℕ} {l0 lBlind lLast : ℕ} {ap ip : List (List F)}
  {c : Leaves} {products : List (Product F)} {lookups : List (Permuted F × Product F)}

/-- The converse of `vanish`. -/
theorem vanish_inv (hd : d.Valid)
    (hb : Bound d cs ch pc N fp cf pp perm l0 lBlind lLast ap ip c products lookups)
    (hr : Ready cs d.n) (hbf : cs.blindingFactors + 1 < d.n) {fv perms : List (List F)}
    {w : Circuit F} (hfv : fp.map (rows d) = fv) (hap : ap.map (rows d) = w.advice)
    (hip : ip.map (rows d) = w.inst) (hpp : pp.map (rows d) = perms) (delta : F)
    (h0 : ∀ j < d.n, (toPoly (pc l0)).eval (d.omega ^ j) = if j = 0 then 1 else 0)
    (hl : ∀ j < d.n, (toPoly (pc lLast)).eval (d.omega ^ j)
      = if j = d.n - (cs.blindingFactors + 1) then 1 else 0)
    (hbl : ∀ j < d.n, (toPoly (pc lBlind)).eval (d.omega ^ j)
      = if d.n - cs.blindingFactors ≤ j then 1 else 0)
    (hnum : products.length = Verif.Permutation.numSets cs.degree cs.permutation)
    {asts : List (Ast F)}
    (ha : proverExpressions cs delta ch cf c perm l0 lBlind lLast products lookups = some asts)
    (hvan : ∀ a ∈ asts, ∀ j < d.n,
      (denote d.omega (fun i => toPoly (pc i)) a).eval (d.omega ^ j) = 0) :
    RowsHold d cs delta ch fv perms w (products.map fun p => rows d p.poly)
      (lookups.map fun p => (rows d p.2.poly, rows d p.1.aPoly, rows d p.1.sPoly)) := by
  rw [proverExpressions, Option.map_eq_some_iff] at ha
  obtain ⟨gs, hgs, rfl⟩ := ha
  have h3 := three_le_degree cs
  have hz : ∀ (p : List F) (j : ℕ), j < d.n →
      (toPoly p).eval (d.omega ^ j) = (rows d p).getD j 0 := by
    intro p j hj
    have := eval_row hd p j 0
    rwa [zpow_zero, one_mul, rotRow_zero hj] at this
  have colsF : ∀ j, ∀ k < cs.numFixed, ∀ r : ℤ,
      (toPoly (pc (cf.getD k 0))).eval (d.omega ^ r * d.omega ^ j)
      = (fv.getD k []).getD (rotRow d.n j r) 0 := by
    intro j k hk r
    have hk' : k < fp.length := by rw [hb.fixedLen]; exact hk
    rw [eval_row hd, hb.hF.getD hk', ← hfv, List.getD_eq_getElem _ _ hk',
      List.getD_eq_getElem (fp.map (rows d)) _ (by simpa using hk'), List.getElem_map]
  have colsA : ∀ j, ∀ k < cs.numAdvice, ∀ r : ℤ,
      (toPoly (pc (c.advice.getD k 0))).eval (d.omega ^ r * d.omega ^ j)
      = (w.advice.getD k []).getD (rotRow d.n j r) 0 := by
    intro j k hk r
    have hk' : k < ap.length := by rw [hb.adviceLen]; exact hk
    rw [eval_row hd, hb.hA.getD hk', ← hap, List.getD_eq_getElem _ _ hk',
      List.getD_eq_getElem (ap.map (rows d)) _ (by simpa using hk'), List.getElem_map]
  have colsI : ∀ j, ∀ k < cs.numInstance, ∀ r : ℤ,
      (toPoly (pc (c.inst.getD k 0))).eval (d.omega ^ r * d.omega ^ j)
      = (w.inst.getD k []).getD (rotRow d.n j r) 0 := by
    intro j k hk r
    have hk' : k < ip.length := by rw [hb.instLen]; exact hk
    rw [eval_row hd, hb.hI.getD hk', ← hip, List.getD_eq_getElem _ _ hk',
      List.getD_eq_getElem (ip.map (rows d)) _ (by simpa using hk'), List.getElem_map]
  have qF : ∀ j, (cs.fixedQueries.map fun q =>
        (toPoly (pc (cf.getD q.1 0))).eval (d.omega ^ q.2 * d.omega ^ j))
      = cs.fixedQueries.map fun q => (cols fv w).fixed q.1 (rotRow d.n j q.2) := fun j =>
    List.map_congr_left fun q hq => colsF j _ (hr.fixed q hq).1 _
  have qA : ∀ j, (cs.adviceQueries.map fun q =>
        (toPoly (pc (c.advice.getD q.1 0))).eval (d.omega ^ q.2 * d.omega ^ j))
      = cs.adviceQueries.map fun q => (cols fv w).advice q.1 (rotRow d.n j q.2) := fun j =>
    List.map_congr_left fun q hq => colsA j _ (hr.advice q hq).1 _
  have qI : ∀ j, (cs.instanceQueries.map fun q =>
        (toPoly (pc (c.inst.getD q.1 0))).eval (d.omega ^ q.2 * d.omega ^ j))
      = cs.instanceQueries.map fun q => (cols fv w).inst q.1 (rotRow d.n j q.2) := fun j =>
    List.map_congr_left fun q hq => colsI j _ (hr.inst q hq).1 _
  simp only [List.mem_append] at hvan
  refine ⟨?_, ?_, ?_⟩
  · intro j hj e he
    obtain ⟨h1, h2⟩ := hr.gates e he
    obtain ⟨t, ht, hte⟩ := ast_eval_eq cs d.omega (fun i => toPoly (pc i)) cf c.advice c.inst h1
      (hb.colsLt hr h1) h2 (d.omega ^ j)
    obtain ⟨i, hi, rfl⟩ := List.getElem_of_mem he
    have hf := mapM_inv hgs
    have hig : i < gs.length := by rw [← hf.length_eq]; exact hi
    have hev := hf.get hi hig
    simp only [List.get_eq_getElem] at hev
    rw [ht] at hev
    have hev := Option.some.inj hev
    have hv := hvan gs[i] (Or.inl (Or.inl (List.getElem_mem hig))) j hj
    rw [← hev] at hv
    rw [qF, qA, qI, evalAlg_eq cs (fun k r => (cols fv w).fixed k (rotRow d.n j r))
      (fun k r => (cols fv w).advice k (rotRow d.n j r))
      (fun k r => (cols fv w).inst k (rotRow d.n j r)) h1 h2] at hte
    rw [← Option.some.inj hte] at hv
    exact hv
  · intro j hj
    have hx := Verif.Permutation.expressions_eq_construct (omega := d.omega)
      (P := fun i => toPoly (pc i)) (L := cs.degree - 2) (by omega) cs.blindingFactors
      (products.map (·.leaf)) cs.permutation perm (colLeaf cf c) l0 lBlind lLast ch.beta ch.gamma
      delta (d.omega ^ j)
    rw [h0 j hj, hl j hj, hbl j hj] at hx
    have hsets : Verif.Permutation.proofEvals d.omega (fun i => toPoly (pc i)) cs.blindingFactors
        (d.omega ^ j) (products.map (·.leaf))
        = Verif.Permutation.rowEvals (Verif.Permutation.numSets cs.degree cs.permutation) d.n
          cs.blindingFactors (fun k j => ((products.map fun p => rows d p.poly).getD k []).getD j 0)
          j := by
      rw [Verif.Permutation.proofEvals, Verif.Permutation.rowEvals, ← hnum]
      apply List.ext_getElem
      · simp
      · intro i h1 h2
        have hi : i < products.length := by simpa using h1
        have hp := hb.hZ _ (List.getElem_mem hi)
        have hr1 : rotRow d.n j 1 = (j + 1) % d.n := by
          have e1 : ((j : ℤ) + 1) = ((j + 1 : ℕ) : ℤ) := by simp
          rw [rotRow, e1, ← Int.natCast_mod, Int.toNat_natCast]
        have hr2 : rotRow d.n j (-((cs.blindingFactors : ℤ) + 1))
            = (j + (d.n - (cs.blindingFactors + 1))) % d.n := by
          rw [rotRow]
          have e1 : ((j : ℤ) + -((cs.blindingFactors : ℤ) + 1)) % d.n
              = ((j + (d.n - (cs.blindingFactors + 1)) : ℕ) : ℤ) % d.n := by
            have e2 : ((j + (d.n - (cs.blindingFactors + 1)) : ℕ) : ℤ)
                = ((j : ℤ) + -((cs.blindingFactors : ℤ) + 1)) + d.n := by omega
            rw [e2, Int.add_emod_right]
          rw [e1, ← Int.natCast_mod, Int.toNat_natCast]
        have e1 := eval_row hd products[i].poly j 1
        have e2 := eval_row hd products[i].poly j (-((cs.blindingFactors : ℤ) + 1))
        rw [zpow_one, hr1] at e1
        rw [hr2] at e2
        have hg : (products.map fun p => rows d p.poly).getD i [] = rows d products[i].poly := by
          rw [List.getD_eq_getElem _ _ (by simpa using hi), List.getElem_map]
        simp only [List.getElem_mapIdx, List.getElem_map, List.length_map, hp, List.getElem_range,
          hg, hz _ _ hj, e1, e2]
    have hpe : (perm.map fun i => (toPoly (pc i)).eval (d.omega ^ j)) = perms.map (·.getD j 0) := by
      rw [← hpp, ← hb.hP.map, List.map_map, List.map_map]
      exact List.map_congr_left fun i _ => hz _ _ hj
    rw [hsets, hpe, expressions_congr (by omega) _ _ _ _ (fun k => (colValues fv w k).getD j 0)
      (by
        intro k hk
        have hok := (hr.perm k hk).1
        rcases k with ⟨_ | _ | _, i⟩ <;> simp only [colOk, decide_eq_true_eq] at hok <;>
          simp only [colLeaf, colValues]
        · have := colsA j _ hok 0
          rwa [zpow_zero, one_mul, rotRow_zero hj] at this
        · have := colsF j _ hok 0
          rwa [zpow_zero, one_mul, rotRow_zero hj] at this
        · have := colsI j _ hok 0
          rwa [zpow_zero, one_mul, rotRow_zero hj] at this)] at hx
    refine ⟨_, hx, ?_⟩
    intro y hy
    obtain ⟨a, ha, rfl⟩ := List.mem_map.1 hy
    exact hvan a (Or.inl (Or.inr ha)) j hj
  · rw [List.forall₂_map_right_iff, List.forall₂_iff_get]
    refine ⟨hb.hK.length_eq, ?_⟩
    intro i hil hi
    simp only [List.get_eq_getElem]
    have hk := hb.hK.get hil hi
    simp only [List.get_eq_getElem] at hk
    obtain ⟨k1, k2, k3, k4, k5⟩ := hk
    have hok := hr.lookups _ (List.getElem_mem hil)
    intro j hj
    obtain ⟨ti, tt, e1, e2, e3⟩ := Verif.Lookup.expressions_eq_construct (omega := d.omega)
        (P := fun i => toPoly (pc i)) cs _ hok cf c.advice c.inst
        (fun e he => hb.colsLt hr (hok e he).1) lookups[i].2.leaf lookups[i].1.aLeaf
        lookups[i].1.sLeaf l0 lBlind lLast ch.theta ch.beta ch.gamma (d.omega ^ j)
    rw [k1] at e1
    rw [k2] at e2
    obtain rfl := Option.some.inj e1
    obtain rfl := Option.some.inj e2
    have r0 := rotRow_zero hj
    have ez := eval_row hd lookups[i].2.poly j 1
    have ea := eval_row hd lookups[i].1.aPoly j (-1)
    rw [zpow_one] at ez
    rw [zpow_neg_one] at ea
    rw [qF, qA, qI, h0 j hj, hl j hj, hbl j hj, k3, k4, k5, hz _ _ hj, ez, hz _ _ hj, ea,
      hz _ _ hj] at e3
    simp only [r0]
    refine ⟨_, e3, ?_⟩
    intro y hy
    obtain ⟨a, ha, rfl⟩ := List.mem_map.1 hy
    exact hvan a (Or.inr (List.mem_flatMap.2 ⟨_, List.getElem_mem hi, ha⟩)) j hj

/-- The shape the verifier prescribes by the number of commitments it reads, for committed
polynomials of `n` coefficients. -/
structure Shape (d : Domain F) (cs : Cs F) (p : CircuitProof F) : Prop where
  adviceLen : p.advicePolys.length = cs.numAdvice
  instLen : p.instPolys.length = cs.numInstance
  setsLen : p.permutation.length = Verif.Permutation.numSets cs.degree cs.permutation
  lookupsLen : p.lookups.length = cs.lookups.length
  advice : ∀ v ∈ p.advicePolys, v.length = d.n
  inst : ∀ v ∈ p.instPolys, v.length = d.n
  permutation : ∀ v ∈ p.permutation, v.length = d.n
  lookups : ∀ q ∈ p.lookups, q.1.length = d.n ∧ q.2.1.length = d.n ∧ q.2.2.length = d.n

/-- Specification: the number of constraint polynomials of one circuit. -/
def numExpressions (cs : Cs F) : ℕ :=
  cs.gates.flatten.length
    + (if Verif.Permutation.numSets cs.degree cs.permutation = 0 then 0
        else 2 * Verif.Permutation.numSets cs.degree cs.permutation + 1)
    + 5 * cs.lookups.length

/-- The rows of committed columns. -/
noncomputable def circuitOf (d : Domain F) (advice inst : List (List F)) : Circuit F :=
  ⟨advice.map (rows d), inst.map (rows d)⟩

theorem permutation_construct_length {Col : Type*} (L bf : ℕ) (hL : L ≠ 0) (sets : List ℕ)
    (columns : List Col) (permLeaves : List ℕ) (hlen : permLeaves.length = columns.length)
    (hs : sets.length = (Verif.Multicore.chunks L columns).length) (colLeaf : Col → ℕ)
    (l0 lBlind lLast : ℕ) (beta gamma delta : F) :
    (Verif.Permutation.construct L bf sets columns permLeaves colLeaf l0 lBlind lLast beta gamma
      delta).length = if sets.length = 0 then 0 else 2 * sets.length + 1 := by
  have h := Verif.Permutation.chunks_length_congr hL columns permLeaves hlen.symm
  obtain _ | ⟨s, sets⟩ := sets
  · simp [Verif.Permutation.construct]
  · simp only [Verif.Permutation.construct, List.length_append, List.length_map, List.length_zip,
      List.length_zipIdx, List.head?_cons, Option.map_some, Option.toList_some,
      List.length_singleton, List.getLast?_cons, List.drop_one, List.tail_cons, ← h, ← hs]
    simp only [List.length_cons, Nat.add_eq_zero_iff, one_ne_zero, and_false, if_false, min_self]
    omega

theorem expression_polys (hd : d.Valid) (hr : Ready cs d.n) (hbf : cs.blindingFactors + 1 < d.n)
    (delta : F) (theta beta gamma : F) {fv perms fp pp : List (List F)}
    (hfn : fv.length = cs.numFixed) (hpn : perms.length = cs.permutation.length)
    (fpl : ∀ p ∈ fp, p.length = d.n) (fpr : fp.map (rows d) = fv)
    (ppl : ∀ p ∈ pp, p.length = d.n) (ppr : pp.map (rows d) = perms) {p0 pB pL : List F}
    (p0l : p0.length = d.n) (pBl : pB.length = d.n) (pLl : pL.length = d.n)
    (i0 : Verif.Vanishing.Interpolates d (fun i => if i = 0 then 1 else 0) (toPoly p0))
    (iL : Verif.Vanishing.Interpolates d
      (fun i => if i = d.n - cs.blindingFactors - 1 then 1 else 0) (toPoly pL))
    (iB : Verif.Vanishing.Interpolates d
      (fun i => if d.n - cs.blindingFactors ≤ i then 1 else 0) (toPoly pB))
    (p : CircuitProof F) (hp : Shape d cs p) :
    ∃ Es : List (Polynomial F), Es.length = numExpressions cs ∧
      (∀ E ∈ Es, E.natDegree ≤ cs.degree * (d.n - 1)) ∧
      (∀ x y, ∃ fe e, queryEvals d x fp cs.fixedQueries = some fe ∧
        circuitEvals d cs x p = some e ∧
        verifierExpressions cs delta ⟨theta, beta, gamma, y⟩ x fe
          (pp.map fun p => evalPolynomial p x)
          ((toPoly p0).eval x, (toPoly pL).eval x, (toPoly pB).eval x) e
          = some (Es.map fun E => E.eval x)) ∧
      ((∀ E ∈ Es, ∀ j < d.n, E.eval (d.omega ^ j) = 0) → ∀ y,
        RowsHold d cs delta ⟨theta, beta, gamma, y⟩ fv perms (circuitOf d p.advicePolys p.instPolys)
          (p.permutation.map (rows d))
          (p.lookups.map fun q => (rows d q.1, rows d q.2.1, rows d q.2.2))) := by
  classical
  have h3 := three_le_degree cs
  obtain ⟨ap, ip, zs, ls⟩ := p
  -- a table of all polynomials
  obtain ⟨all, hall⟩ : ∃ all : List (List F), all = fp ++ pp ++ ap ++ ip ++ zs
      ++ ls.map (·.1) ++ ls.map (·.2.1) ++ ls.map (·.2.2) ++ [p0, pB, pL] := ⟨_, rfl⟩
  have hlen : ∀ q ∈ all, q.length = d.n := by
    intro q hq
    rw [hall] at hq
    simp only [List.mem_append, List.mem_map, List.mem_cons, List.not_mem_nil, or_false] at hq
    rcases hq with (((((((hq | hq) | hq) | hq) | hq) | ⟨a, ha, rfl⟩) | ⟨a, ha, rfl⟩) | ⟨a, ha, rfl⟩) |
      rfl | rfl | rfl
    · exact fpl _ hq
    · exact ppl _ hq
    · exact hp.advice _ hq
    · exact hp.inst _ hq
    · exact hp.permutation _ hq
    · exact (hp.lookups a ha).1
    · exact (hp.lookups a ha).2.1
    · exact (hp.lookups a ha).2.2
    · exact p0l
    · exact pBl
    · exact pLl
  obtain ⟨pc, hpc⟩ : ∃ pc : ℕ → List F, pc = fun i => all.getD i (List.replicate d.n 0) := ⟨_, rfl⟩
  have pcl : ∀ i, (pc i).length = d.n := by
    intro i
    rw [hpc]
    by_cases hi : i < all.length
    · simp only [List.getD_eq_getElem _ _ hi]
      exact hlen _ (List.getElem_mem hi)
    · simp only [List.getD_eq_default _ _ (by omega : all.length ≤ i)]
      simp
  obtain ⟨lf, hlf⟩ : ∃ lf : List F → ℕ, ∀ q ∈ all, lf q < all.length ∧ pc (lf q) = q := by
    refine ⟨fun q => all.idxOf q, fun q hq => ?_⟩
    have h := List.idxOf_lt_length_of_mem hq
    refine ⟨h, ?_⟩
    rw [hpc]
    simp only [List.getD_eq_getElem _ _ h]
    exact List.getElem_idxOf h
  have hmem : ∀ {l : List (List F)}, (∀ q ∈ l, q ∈ all) → Bnd pc l (l.map lf) := by
    intro l hl
    rw [Bnd, List.forall₂_map_right_iff, List.forall₂_same]
    exact fun q hq => (hlf q (hl q hq)).2
  have hlt : ∀ {l : List (List F)}, (∀ q ∈ l, q ∈ all) → ∀ i ∈ l.map lf, i < all.length := by
    intro l hl i hi
    obtain ⟨q, hq, rfl⟩ := List.mem_map.1 hi
    exact (hlf q (hl q hq)).1
  have mF : ∀ q ∈ fp, q ∈ all := fun q hq => by rw [hall]; simp [hq]
  have mP : ∀ q ∈ pp, q ∈ all := fun q hq => by rw [hall]; simp [hq]
  have mA : ∀ q ∈ ap, q ∈ all := fun q hq => by rw [hall]; simp [hq]
  have mI : ∀ q ∈ ip, q ∈ all := fun q hq => by rw [hall]; simp [hq]
  have mZ : ∀ q ∈ zs, q ∈ all := fun q hq => by rw [hall]; simp [hq]
  have m1 : ∀ q ∈ ls, q.1 ∈ all := fun q hq => by
    rw [hall]; simp only [List.mem_append]; exact Or.inl (Or.inl (Or.inl (Or.inr (List.mem_map_of_mem hq))))
  have m2 : ∀ q ∈ ls, q.2.1 ∈ all := fun q hq => by
    rw [hall]; simp only [List.mem_append]; exact Or.inl (Or.inl (Or.inr (List.mem_map_of_mem (f := fun q => q.2.1) hq)))
  have m3 : ∀ q ∈ ls, q.2.2 ∈ all := fun q hq => by
    rw [hall]; simp only [List.mem_append]; exact Or.inl (Or.inr (List.mem_map_of_mem (f := fun q => q.2.2) hq))
  have m4 : p0 ∈ all := by rw [hall]; simp
  have m5 : pB ∈ all := by rw [hall]; simp
  have m6 : pL ∈ all := by rw [hall]; simp
  obtain ⟨c, hc⟩ : ∃ c : Leaves, c = ⟨ap.map lf, ip.map lf⟩ := ⟨_, rfl⟩
  obtain ⟨products, hprod⟩ : ∃ products : List (Product F), products = zs.map fun z => ⟨z, lf z⟩ :=
    ⟨_, rfl⟩
  have fpn : fp.length = cs.numFixed := by rw [← hfn, ← fpr, List.length_map]
  have ppn : pp.length = cs.permutation.length := by rw [← hpn, ← ppr, List.length_map]
  have hls : ls.length = cs.lookups.length := hp.lookupsLen
  have hasts : ∀ es : List (Expr F), (∀ e ∈ es, cs.Covers e ∧ e.sels = []) →
      ∃ t, Verif.Lookup.compressCosetAst theta (fp.map lf) c.advice c.inst es = some t := by
    intro es he
    obtain ⟨_, t, _, ht, -⟩ := Verif.Lookup.compressAst_eval (omega := d.omega)
      (P := fun i => toPoly (pc i)) theta (fp.map lf) c.advice c.inst es fun e h =>
      ⟨by
        have := hr.colsLt (he e h).1
        rw [hc]
        simp only [List.length_map, fpn, hp.adviceLen, hp.instLen]
        exact this, (he e h).2⟩
    exact ⟨t, ht⟩
  obtain ⟨lookups, hk, hkm⟩ : ∃ lookups : List (Permuted F × Product F),
      List.Forall₂ (fun l (p : Permuted F × Product F) =>
      Verif.Lookup.compressCosetAst theta (fp.map lf) c.advice c.inst l.input = some p.1.inputCoset ∧
      Verif.Lookup.compressCosetAst theta (fp.map lf) c.advice c.inst l.table = some p.1.tableCoset ∧
      pc p.1.aLeaf = p.1.aPoly ∧ pc p.1.sLeaf = p.1.sPoly ∧ pc p.2.leaf = p.2.poly)
      cs.lookups lookups ∧ List.Forall₂ (fun (q : List F × List F × List F)
        (p : Permuted F × Product F) => q = (p.2.poly, p.1.aPoly, p.1.sPoly) ∧
        p.1.aLeaf < all.length ∧ p.1.sLeaf < all.length ∧ p.2.leaf < all.length) ls lookups := by
    have key : ∀ (L : List (Lookup F)) (ls : List (List F × List F × List F)),
        ls.length = L.length → (∀ l ∈ L, l ∈ cs.lookups) →
        (∀ q ∈ ls, q.1 ∈ all ∧ q.2.1 ∈ all ∧ q.2.2 ∈ all) →
        ∃ lookups : List (Permuted F × Product F),
      List.Forall₂ (fun l (p : Permuted F × Product F) =>
      Verif.Lookup.compressCosetAst theta (fp.map lf) c.advice c.inst l.input = some p.1.inputCoset ∧
      Verif.Lookup.compressCosetAst theta (fp.map lf) c.advice c.inst l.table = some p.1.tableCoset ∧
      pc p.1.aLeaf = p.1.aPoly ∧ pc p.1.sLeaf = p.1.sPoly ∧ pc p.2.leaf = p.2.poly)
      L lookups ∧ List.Forall₂ (fun (q : List F × List F × List F)
        (p : Permuted F × Product F) => q = (p.2.poly, p.1.aPoly, p.1.sPoly) ∧
        p.1.aLeaf < all.length ∧ p.1.sLeaf < all.length ∧ p.2.leaf < all.length) ls lookups := by
      intro L
      induction L with
      | nil =>
        intro ls h _ _
        rw [List.length_eq_zero_iff.1 h]
        exact ⟨[], .nil, .nil⟩
      | cons l L ih =>
        intro ls h hL hq
        obtain _ | ⟨q, ls⟩ := ls
        · simp at h
        obtain ⟨lookups, k1, k2⟩ := ih ls (by simpa using h) (fun l hl => hL l (by simp [hl]))
          (fun q h => hq q (by simp [h]))
        have hok := hr.lookups l (hL l (by simp))
        obtain ⟨t1, ht1⟩ := hasts l.input fun e he => hok e (by simp [he])
        obtain ⟨t2, ht2⟩ := hasts l.table fun e he => hok e (by simp [he])
        obtain ⟨q1, q2, q3⟩ := hq q (by simp)
        refine ⟨(⟨[], t1, [], q.2.1, lf q.2.1, [], t2, [], q.2.2, lf q.2.2⟩, ⟨q.1, lf q.1⟩)
          :: lookups, .cons ⟨ht1, ht2, (hlf _ q2).2, (hlf _ q3).2, (hlf _ q1).2⟩ k1,
          .cons ⟨rfl, (hlf _ q2).1, (hlf _ q3).1, (hlf _ q1).1⟩ k2⟩
    exact key _ _ hls (fun l hl => hl) fun q hq => ⟨m1 q hq, m2 q hq, m3 q hq⟩
  have hlsE : ls = lookups.map fun (p : Permuted F × Product F) =>
      (p.2.poly, p.1.aPoly, p.1.sPoly) := by
    clear hk hls
    clear * - hkm
    induction hkm with
    | nil => rfl
    | cons h _ ih => rw [List.map_cons, ← ih, ← h.1]
  have hb : ∀ y, Bound d cs ⟨theta, beta, gamma, y⟩ pc all.length fp (fp.map lf) pp (pp.map lf)
      (lf p0) (lf pB) (lf pL) ap ip c products lookups := by
    intro y
    refine
      { hF := hmem mF, fixedLen := fpn, hA := by rw [hc]; exact hmem mA, adviceLen := hp.adviceLen,
        hI := by rw [hc]; exact hmem mI, instLen := hp.instLen, hP := hmem mP, permLen := ppn,
        hZ := ?_, hK := hk, ltF := hlt mF, ltA := by rw [hc]; exact hlt mA,
        ltI := by rw [hc]; exact hlt mI, ltP := hlt mP,
        ltL := ⟨(hlf _ m4).1, (hlf _ m5).1, (hlf _ m6).1⟩, ltZ := ?_, ltK := ?_ }
    · intro p hpm
      rw [hprod] at hpm
      obtain ⟨z, hz, rfl⟩ := List.mem_map.1 hpm
      exact (hlf z (mZ z hz)).2
    · intro p hpm
      rw [hprod] at hpm
      obtain ⟨z, hz, rfl⟩ := List.mem_map.1 hpm
      exact (hlf z (mZ z hz)).1
    · intro p hpm
      obtain ⟨q, -, -, h⟩ := forall₂_right hkm p hpm
      exact h
  have hzs : zs = products.map (·.poly) := by rw [hprod, List.map_map]; simp [Function.comp_def]
  obtain ⟨gs, hgs, has, hlv⟩ := prover_some (hb 0) hr (by omega) (by omega) delta
  obtain ⟨asts, hastsE⟩ : ∃ asts, asts = gs ++ Verif.Permutation.construct (cs.degree - 2)
      cs.blindingFactors (products.map (·.leaf)) cs.permutation (pp.map lf) (colLeaf (fp.map lf) c)
      (lf p0) (lf pB) (lf pL) beta gamma delta
      ++ lookups.flatMap fun (p : Permuted F × Product F) =>
        Verif.Lookup.construct p.2.leaf p.1.aLeaf p.1.sLeaf p.1.inputCoset p.1.tableCoset
              beta gamma (lf p0) (lf pB) (lf pL) := ⟨_, rfl⟩
  have has' : ∀ y, proverExpressions cs delta ⟨theta, beta, gamma, y⟩ (fp.map lf) c (pp.map lf)
      (lf p0) (lf pB) (lf pL) products lookups = some asts := by
    intro y; rw [hastsE]; exact has
  have hpl : products.length = Verif.Permutation.numSets cs.degree cs.permutation := by
    rw [hprod, List.length_map]; exact hp.setsLen
  refine ⟨asts.map (denote d.omega fun i => toPoly (pc i)), ?_, ?_, ?_, ?_⟩
  · have e1 := (mapM_inv hgs).length_eq
    have e2 : (lookups.flatMap fun (p : Permuted F × Product F) =>
        Verif.Lookup.construct p.2.leaf p.1.aLeaf p.1.sLeaf p.1.inputCoset p.1.tableCoset
              beta gamma (lf p0) (lf pB) (lf pL)).length = 5 * cs.lookups.length := by
      rw [hk.length_eq, List.length_flatMap]
      simp [Verif.Lookup.construct, mul_comm]
    rw [List.length_map, hastsE, List.length_append, List.length_append, e2, ← e1,
      permutation_construct_length _ _ (by omega) _ _ _ (by rw [List.length_map, ppn])
        (by rw [List.length_map, hpl]; rfl), List.length_map, hpl, numExpressions]
  · intro E hE
    obtain ⟨a, ha, rfl⟩ := List.mem_map.1 hE
    refine expressions_degree (m := d.n - 1) ?_ (by omega) cs delta ⟨theta, beta, gamma, 0⟩
      (fp.map lf) c ?_ ?_ _ _ _ _ _ _ ?_ (has' 0) a ha
    · intro i
      rw [Polynomial.natDegree_le_iff_degree_le]
      have := toPoly_degree (pcl i)
      rw [Polynomial.degree_le_iff_coeff_zero]
      intro m hm
      apply Polynomial.coeff_eq_zero_of_degree_lt
      refine this.trans_le ?_
      have h' : d.n - 1 < m := by exact_mod_cast hm
      have : d.n ≤ m := by omega
      exact_mod_cast this
    · exact fun e he => ⟨(hr.gates e he).2, (hb 0).colsLt hr (hr.gates e he).1⟩
    · exact fun l hl => ⟨hr.lookups l hl, fun e he => (hb 0).colsLt hr (hr.lookups l hl e he).1⟩
    · exact hk.imp fun _ _ h => ⟨h.1, h.2.1⟩
  · intro x y
    obtain ⟨fe, e, f1, f2, f3⟩ := verifier_eq hd (hb y) hr delta x (has' y)
    rw [(hlf _ m4).2, (hlf _ m5).2, (hlf _ m6).2] at f3
    rw [← hzs, ← hlsE] at f2
    refine ⟨fe, e, f1, f2, ?_⟩
    rw [f3, List.map_map]
    rfl
  · intro hv y
    have := vanish_inv hd (hb y) hr hbf (w := circuitOf d ap ip) fpr rfl rfl ppr delta
      (by intro j hj; rw [(hlf _ m4).2]; exact i0.row j hj)
      (by intro j hj; rw [(hlf _ m6).2, iL.row j hj]; congr 1)
      (by intro j hj; rw [(hlf _ m5).2]; exact iB.row j hj) hpl (has' y)
      (fun a ha j hj => hv _ (List.mem_map_of_mem ha) j hj)
    rw [hzs, hlsE, List.map_map, List.map_map]
    exact this

end Verif.Plonk
