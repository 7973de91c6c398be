import Verif.Protocol.Open

/-!
# The stages together
-/

namespace Verif.Protocol

open Verif.Cs (Cs Column Lookup)
open Verif.Domain (Domain)
open Verif.PolyArith (evalPolynomial)
open Verif.Plonk (Pk Circuit Leaves Permuted Product Challenges CircuitProof CircuitEvals mapS
  register queryEvals circuitEvals)
open Verif.Msm Verif.Transcript Verif.Multicore
open Verif.Multiopen (Query Commitment commitOf Denotes)
open Verif.Ipa (ParamsOk GuardOk)

variable {F K A : Type} [Field F] [AddCommGroup A] [Module F A] [Field K]
variable {Good : List F → Prop} {tr : List F} {threads : ℕ} {pr : Params A} {d : Domain F}

theorem toCoeffs_eq (hs : Setup threads pr d) (ht : threads ≠ 0) (vs : List (List F))
    (h : ∀ v ∈ vs, v.length = d.n) :
    Verif.Plonk.toCoeffs threads d vs = some (vs.map (coeffs threads d)) :=
  mapM_some _ _ fun v hv => (coeffs_spec hs ht v (h v hv)).1

theorem prepare_spec (hs : Setup threads pr d) (ht : threads ≠ 0) {pk : Pk F}
    {ws : List (Circuit F)} {P : Prep F} (h : prepare threads d pk ws = some P)
    (hi : ∀ w ∈ ws, ∀ v ∈ w.inst, v.length = d.n) (ha : ∀ w ∈ ws, ∀ v ∈ w.advice, v.length = d.n) :
    P.instPolys = ws.map (fun w => w.inst.map (coeffs threads d)) ∧
    P.advicePolys = ws.map (fun w => w.advice.map (coeffs threads d)) ∧
    ((P.vi.zip P.ci).zip (P.va.zip P.ca)).length = ws.length ∧ P.ca.length = ws.length ∧
    P.ci.length = ws.length := by
  unfold prepare at h
  rw [mapM_some ws (fun w => w.inst.map (coeffs threads d))
    (fun w hw => toCoeffs_eq hs ht _ (hi w hw)), Option.bind_some] at h
  obtain ⟨ic, h1, h⟩ := Option.bind_eq_some_iff.1 h
  rw [mapM_some ws (fun w => w.advice.map (coeffs threads d))
    (fun w hw => toCoeffs_eq hs ht _ (ha w hw)), Option.bind_some] at h
  obtain ⟨ac, h2, h⟩ := Option.bind_eq_some_iff.1 h
  obtain ⟨⟨vf, c1⟩, -, h⟩ := Option.bind_eq_some_iff.1 h
  obtain ⟨⟨va, c2⟩, h3, h⟩ := Option.bind_eq_some_iff.1 h
  obtain ⟨⟨vi, c3⟩, h4, h⟩ := Option.bind_eq_some_iff.1 h
  obtain ⟨⟨cf, c4⟩, -, h⟩ := Option.bind_eq_some_iff.1 h
  obtain ⟨⟨ca, c5⟩, h5, h⟩ := Option.bind_eq_some_iff.1 h
  obtain ⟨⟨ci, c6⟩, h6, h⟩ := Option.bind_eq_some_iff.1 h
  obtain ⟨⟨_, c7⟩, -, h⟩ := Option.bind_eq_some_iff.1 h
  obtain ⟨⟨_, c8⟩, -, h⟩ := Option.bind_eq_some_iff.1 h
  obtain ⟨⟨_, c9⟩, -, h⟩ := Option.bind_eq_some_iff.1 h
  obtain ⟨⟨_, c10⟩, -, rfl⟩ := Option.map_eq_some_iff.1 h
  have l1 := mapS_length h3
  have l2 := mapS_length h4
  have l3 := mapS_length h5
  have l4 := mapS_length h6
  have l5 := (List.Forall₂.length_eq (Verif.Plonk.mapM_inv h1)).symm
  have l6 := (List.Forall₂.length_eq (Verif.Plonk.mapM_inv h2)).symm
  simp only [List.length_map] at l1 l2 l3 l4 l5 l6
  refine ⟨rfl, rfl, ?_, by simp only; omega, by simp only; omega⟩
  simp only [List.length_zip]
  omega

/-- The constraint part of the prover, from its stages. -/
theorem createProof_combine [LinearOrder F] {cs : Cs F} {delta : F} {rng : Rng F} {pk : Pk F}
    {ws : List (Circuit F)} {P : Prep F} (hP : prepare threads d pk ws = some P)
    {theta beta gamma y : F} {permuted : List (List (Permuted F × F × F))}
    {products lookupProducts : List (List (Product F × F))} {ctx : List (List F)}
    (hok : ProductsOk threads d cs delta rng pk ws P theta beta gamma permuted products
      lookupProducts ctx) {exprs : List (List (Verif.Evaluator.Ast F))}
    (hexprs : (((P.ca.zip P.ci).zip (products.zip (permuted.zip lookupProducts))).mapM
          fun (q' : (List ℕ × List ℕ) × List (Product F × F) × List (Permuted F × F × F) ×
              List (Product F × F)) =>
            Verif.Plonk.proverExpressions cs delta ⟨theta, beta, gamma, y⟩ P.cf
              ⟨q'.1.1, q'.1.2⟩ P.perm P.l0 P.lBlind P.lLast (q'.2.1.map Prod.fst)
              ((q'.2.2.1.map Prod.fst).zip (q'.2.2.2.map Prod.fst))) = some exprs)
    {pieces : List (List F)}
    (hpieces : Verif.Vanishing.construct threads d ctx exprs.flatten y = some pieces) :
    Verif.Plonk.createProof threads d cs delta ⟨theta, beta, gamma, y⟩ rng.permuted rng.permutation
      rng.lookup pk ws = some (((P.advicePolys.zip P.instPolys).zip
        (products.zip (permuted.zip lookupProducts))).map fun q =>
          { advicePolys := q.1.1, instPolys := q.1.2
            permutation := (q.2.1.map Prod.fst).map (·.poly)
            lookups := ((q.2.2.1.map Prod.fst).zip (q.2.2.2.map Prod.fst)).map fun p =>
              (p.2.poly, p.1.aPoly, p.1.sPoly) }, pieces) := by
  unfold prepare at hP
  obtain ⟨ip, h1, hP⟩ := Option.bind_eq_some_iff.1 hP
  obtain ⟨ic, h2, hP⟩ := Option.bind_eq_some_iff.1 hP
  obtain ⟨ap, h3, hP⟩ := Option.bind_eq_some_iff.1 hP
  obtain ⟨ac, h4, hP⟩ := Option.bind_eq_some_iff.1 hP
  obtain ⟨⟨vf, c1⟩, h5, hP⟩ := Option.bind_eq_some_iff.1 hP
  obtain ⟨⟨va, c2⟩, h6, hP⟩ := Option.bind_eq_some_iff.1 hP
  obtain ⟨⟨vi, c3⟩, h7, hP⟩ := Option.bind_eq_some_iff.1 hP
  obtain ⟨⟨cf, c4⟩, h8, hP⟩ := Option.bind_eq_some_iff.1 hP
  obtain ⟨⟨ca, c5⟩, h9, hP⟩ := Option.bind_eq_some_iff.1 hP
  obtain ⟨⟨ci, c6⟩, h10, hP⟩ := Option.bind_eq_some_iff.1 hP
  obtain ⟨⟨perm, c7⟩, h11, hP⟩ := Option.bind_eq_some_iff.1 hP
  obtain ⟨⟨l0, c8⟩, h12, hP⟩ := Option.bind_eq_some_iff.1 hP
  obtain ⟨⟨lBlind, c9⟩, h13, hP⟩ := Option.bind_eq_some_iff.1 hP
  obtain ⟨⟨lLast, c10⟩, h14, rfl⟩ := Option.map_eq_some_iff.1 hP
  obtain ⟨ctx₁, ctx₂, r1, r2, r3⟩ := hok.run
  dsimp only at r1 r2 r3 hexprs h5 h6 h7 h8 h9 h10 h11 h12 h13 h14
  unfold Verif.Plonk.createProof
  rw [h1, Option.bind_some, h2, Option.bind_some, h3, Option.bind_some, h4, Option.bind_some, h5,
    Option.bind_some]
  dsimp only
  rw [h6, Option.bind_some]
  dsimp only
  rw [h7, Option.bind_some]
  dsimp only
  rw [h8, Option.bind_some]
  dsimp only
  rw [h9, Option.bind_some]
  dsimp only
  rw [h10, Option.bind_some]
  dsimp only
  rw [h11, Option.bind_some]
  dsimp only
  rw [h12, Option.bind_some]
  dsimp only
  rw [h13, Option.bind_some]
  dsimp only
  rw [h14, Option.bind_some]
  dsimp only
  rw [r1, Option.bind_some]
  dsimp only
  rw [r2, Option.bind_some]
  dsimp only
  rw [r3, Option.bind_some]
  dsimp only
  rw [List.zip_map, List.zip_map, List.zip_map_right, List.zip_map_right, Verif.Plonk.mapM_map',
    List.map_map]
  erw [hexprs]
  rw [Option.bind_some, hpieces]
  rfl

/-! ### What is opened -/

/-- The list of what is opened, as in `createProof`. -/
def opensList (P : Prep F) (rng : Rng F) (ws : List (Circuit F))
    (products : List (List (Product F × F))) (permuted : List (List (Permuted F × F × F)))
    (lookupProducts : List (List (Product F × F))) : List (Opens (List F × F)) :=
  (((P.instPolys.zip P.advicePolys).zip
    (ws.mapIdx fun i w => w.advice.mapIdx fun j _ => rng.adviceBlind i j)).zip
      (products.zip (permuted.zip lookupProducts))).map opensOf

theorem adviceOpens_eq (rng : Rng F) (i : ℕ) (advice : List (List F)) :
    adviceOpens threads d rng i advice = (advice.map (coeffs threads d)).zip
      (advice.mapIdx fun j _ => rng.adviceBlind i j) := by
  refine List.ext_getElem (by simp [adviceOpens]) fun j h1 h2 => ?_
  simp [adviceOpens]

theorem opens_comms {P : Prep F} {rng : Rng F} {n bf : ℕ} {circuits instances : List (List (List F))}
    {products : List (List (Product F × F))} {permuted : List (List (Permuted F × F × F))}
    {lookupProducts : List (List (Product F × F))} {ws : List (Circuit F)}
    (hws : ws = witness n bf rng circuits instances) (hl : circuits.length = instances.length)
    (hi : P.instPolys = ws.map (fun w => w.inst.map (coeffs threads d)))
    (ha : P.advicePolys = ws.map (fun w => w.advice.map (coeffs threads d))) :
    ((((instances.map fun i => i.map fun v => commitOf pr (coeffs threads d (pad n v), 1)).zip
      (circuits.zipIdx.map fun q => (adviceOpens threads d rng q.2
          (blindCircuit n bf rng.adviceRows q.2 q.1)).map (commitOf pr))).zip
      ((products.map fun ps => ps.map fun r => commitOf pr (r.1.poly, r.2)).zip
        ((permuted.zip lookupProducts).map fun ps => (ps.1.zip ps.2).map fun r =>
          (commitOf pr (lookupOpens r).1, commitOf pr (lookupOpens r).2.1,
            commitOf pr (lookupOpens r).2.2)))).map fun q =>
      ({ inst := q.1.1, advice := q.1.2, permutation := q.2.1, lookups := q.2.2 } : Opens A))
      = (opensList P rng ws products permuted lookupProducts).map (Opens.map (commitOf pr)) := by
  have hwl : ws.length = circuits.length := by rw [hws]; simp [witness, hl]
  refine List.ext_getElem ?_ fun i h1 h2 => ?_
  · simp only [opensList, List.length_map, List.length_zip, List.length_zipIdx, List.length_mapIdx,
      hi, ha]
    omega
  · simp only [opensList, hi, ha, List.getElem_map, List.getElem_zip, List.getElem_zipIdx,
      List.getElem_mapIdx, opensOf, Opens.map, adviceOpens_eq, List.map_map, Nat.zero_add]
    congr 1
    · subst hws
      simp [witness, opensOf, Function.comp_def]
    · subst hws
      simp [witness, opensOf]
    · simp [opensOf, Function.comp_def]
    · simp [opensOf, lookupOpens, Function.comp_def]

theorem opens_proofs {P : Prep F} {rng : Rng F}
    {products : List (List (Product F × F))} {permuted : List (List (Permuted F × F × F))}
    {lookupProducts : List (List (Product F × F))} {ws : List (Circuit F)}
    (hi : P.instPolys = ws.map (fun w => w.inst.map (coeffs threads d)))
    (ha : P.advicePolys = ws.map (fun w => w.advice.map (coeffs threads d))) :
    ((P.advicePolys.zip P.instPolys).zip
        (products.zip (permuted.zip lookupProducts))).map (fun q =>
          ({ advicePolys := q.1.1, instPolys := q.1.2
             permutation := (q.2.1.map Prod.fst).map (·.poly)
             lookups := ((q.2.2.1.map Prod.fst).zip (q.2.2.2.map Prod.fst)).map fun p =>
              (p.2.poly, p.1.aPoly, p.1.sPoly) } : CircuitProof F))
      = (opensList P rng ws products permuted lookupProducts).map proofOf := by
  refine List.ext_getElem ?_ fun i h1 h2 => ?_
  · simp only [opensList, List.length_map, List.length_zip, List.length_mapIdx, hi, ha]
    omega
  · simp only [opensList, hi, ha, List.getElem_map, List.getElem_zip,
      List.getElem_mapIdx, proofOf, List.map_map]
    congr 1
    · simp only [opensOf]
      rw [List.map_fst_zip (by simp)]
    · simp [opensOf, Function.comp_def]
    · simp [opensOf, Function.comp_def]
    · simp [opensOf, Function.comp_def, List.zip_map]

theorem opens_sized (hs : Setup threads pr d) (ht : threads ≠ 0) {P : Prep F} {rng : Rng F}
    {products : List (List (Product F × F))} {permuted : List (List (Permuted F × F × F))}
    {lookupProducts : List (List (Product F × F))} {ws : List (Circuit F)}
    (hi : P.instPolys = ws.map (fun w => w.inst.map (coeffs threads d)))
    (ha : P.advicePolys = ws.map (fun w => w.advice.map (coeffs threads d)))
    (hil : ∀ w ∈ ws, ∀ v ∈ w.inst, v.length = d.n)
    (hal : ∀ w ∈ ws, ∀ v ∈ w.advice, v.length = d.n)
    (h1 : ∀ ps ∈ permuted, ∀ p ∈ ps, p.1.aPoly.length = d.n ∧ p.1.sPoly.length = d.n)
    (h2 : ∀ ps ∈ products, ∀ p ∈ ps, p.1.poly.length = d.n)
    (h3 : ∀ ps ∈ lookupProducts, ∀ p ∈ ps, p.1.poly.length = d.n) :
    ∀ o ∈ opensList P rng ws products permuted lookupProducts, o.Sized d.n := by
  intro o ho
  unfold opensList at ho
  obtain ⟨⟨⟨⟨ip, ap⟩, bl⟩, pd, pm, lp⟩, hq, rfl⟩ := List.mem_map.1 ho
  obtain ⟨hq1, hq2⟩ := List.of_mem_zip hq
  obtain ⟨hq1, -⟩ := List.of_mem_zip hq1
  obtain ⟨hip, hap⟩ := List.of_mem_zip hq1
  obtain ⟨hpd, hq2⟩ := List.of_mem_zip hq2
  obtain ⟨hpm, hlp⟩ := List.of_mem_zip hq2
  rw [hi] at hip
  rw [ha] at hap
  obtain ⟨w, hw, rfl⟩ := List.mem_map.1 hip
  obtain ⟨w', hw', rfl⟩ := List.mem_map.1 hap
  refine ⟨?_, ?_, ?_, ?_⟩
  · intro p hp
    simp only [opensOf, List.map_map, List.mem_map] at hp
    obtain ⟨v, hv, rfl⟩ := hp
    exact (coeffs_spec hs ht v (hil w hw v hv)).2
  · intro p hp
    simp only [opensOf] at hp
    obtain ⟨hp, -⟩ := List.of_mem_zip (a := p.1) (b := p.2) hp
    obtain ⟨v, hv, hp⟩ := List.mem_map.1 hp
    rw [← hp]
    exact (coeffs_spec hs ht v (hal w' hw' v hv)).2
  · intro p hp
    simp only [opensOf, List.mem_map] at hp
    obtain ⟨q, hq, rfl⟩ := hp
    exact h2 pd hpd q hq
  · intro p hp
    simp only [opensOf, List.mem_map] at hp
    obtain ⟨⟨a, b⟩, hq, rfl⟩ := hp
    obtain ⟨hqa, hqb⟩ := List.of_mem_zip hq
    exact ⟨h3 lp hlp b hqb, (h1 pm hpm a hqa).1, (h1 pm hpm a hqa).2⟩

end Verif.Protocol
