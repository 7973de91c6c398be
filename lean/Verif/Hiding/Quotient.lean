import Verif.Hiding.Columns

/-!
# Steering the quotient (C77)
-/

namespace Verif.Hiding

open Verif.Cs (Cs Column Lookup)
open Verif.Domain (Domain)
open Verif.PolyArith (evalPolynomial)
open Verif.Plonk (Pk Circuit Leaves Permuted Product Challenges CircuitProof CircuitEvals mapS rows)
open Verif.Msm Verif.Transcript Verif.Multicore
open Verif.Multiopen (commitOf)
open Verif.Ipa (ParamsOk)
open Verif.Protocol

variable {F K A : Type} [Field F] [LinearOrder F] [AddCommGroup A] [Module F A] [Field K]
  [LinearOrder K] {threads : ℕ} {pr : Params A} {d : Domain F}

/-- The expressions and the quotient as the prover computes them. -/
def Quotient (threads : ℕ) (d : Domain F) (cs : Cs F) (delta : F) (ch : Challenges F) (P : Prep F)
    (permuted : List (List (Permuted F × F × F))) (products lookupProducts : List (List (Product F × F)))
    (ctx : List (List F)) (pieces : List (List F)) : Prop :=
  ∃ exprs, (((P.ca.zip P.ci).zip (products.zip (permuted.zip lookupProducts))).mapM
    fun (q : (List ℕ × List ℕ) × List (Product F × F) × List (Permuted F × F × F) ×
        List (Product F × F)) =>
      Verif.Plonk.proverExpressions cs delta ch P.cf ⟨q.1.1, q.1.2⟩ P.perm
        P.l0 P.lBlind P.lLast (q.2.1.map Prod.fst)
        ((q.2.2.1.map Prod.fst).zip (q.2.2.2.map Prod.fst))) = some exprs ∧
    Verif.Vanishing.construct threads d ctx exprs.flatten ch.y = some pieces

/-- The quotient of the polynomial part of the prover is the one of the protocol. -/
theorem createProof_split {cs : Cs F} {delta : F} {rng : Rng F} {pk : Pk F}
    {ws : List (Circuit F)} {P : Prep F} (hP : prepare threads d pk ws = some P)
    {theta beta gamma y : F} {permuted : List (List (Permuted F × F × F))}
    {products lookupProducts : List (List (Product F × F))} {ctx : List (List F)}
    (hok : ProductsOk threads d cs delta rng pk ws P theta beta gamma permuted products
      lookupProducts ctx) {proofs : List (CircuitProof F)} {pieces : List (List F)}
    (h : Verif.Plonk.createProof threads d cs delta ⟨theta, beta, gamma, y⟩ rng.permuted
      rng.permutation rng.lookup pk ws = some (proofs, pieces)) :
    Quotient threads d cs delta ⟨theta, beta, gamma, y⟩ P permuted products lookupProducts ctx
      pieces := by
  unfold prepare at hP
  obtain ⟨ip, h1, hP⟩ := Option.bind_eq_some_iff.1 hP
  obtain ⟨ic, h2, hP⟩ := Option.bind_eq_some_iff.1 hP
  obtain ⟨ap, h3, hP⟩ := Option.bind_eq_some_iff.1 hP
  obtain ⟨ac, h4, hP⟩ := Option.bind_eq_some_iff.1 hP
  obtain ⟨⟨vf, c1⟩, h5, hP⟩ := Option.bind_eq_some_iff.1 hP
  obtain ⟨⟨va, c2⟩, h6, hP⟩ := Option.bind_eq_some_iff.1 hP
  obtain ⟨⟨vi, c3⟩, h7, hP⟩ := Option.bind_eq_some_iff.1 hP
  obtain ⟨⟨cf, c4⟩, h8, hP⟩ := Option.bind_eq_some_iff.1 hP
  obtain ⟨⟨ca, c5⟩, h9, hP⟩ := Option.bind_eq_some_iff.1 hP
  obtain ⟨⟨ci, c6⟩, h10, hP⟩ := Option.bind_eq_some_iff.1 hP
  obtain ⟨⟨perm, c7⟩, h11, hP⟩ := Option.bind_eq_some_iff.1 hP
  obtain ⟨⟨l0, c8⟩, h12, hP⟩ := Option.bind_eq_some_iff.1 hP
  obtain ⟨⟨lBlind, c9⟩, h13, hP⟩ := Option.bind_eq_some_iff.1 hP
  obtain ⟨⟨lLast, c10⟩, h14, rfl⟩ := Option.map_eq_some_iff.1 hP
  obtain ⟨ctx₁, ctx₂, r1, r2, r3⟩ := hok.run
  dsimp only at r1 r2 r3 h5 h6 h7 h8 h9 h10 h11 h12 h13 h14
  unfold Verif.Plonk.createProof at h
  rw [h1, Option.bind_some, h2, Option.bind_some, h3, Option.bind_some, h4, Option.bind_some, h5,
    Option.bind_some] at h
  dsimp only at h
  rw [h6, Option.bind_some] at h
  dsimp only at h
  rw [h7, Option.bind_some] at h
  dsimp only at h
  rw [h8, Option.bind_some] at h
  dsimp only at h
  rw [h9, Option.bind_some] at h
  dsimp only at h
  rw [h10, Option.bind_some] at h
  dsimp only at h
  rw [h11, Option.bind_some] at h
  dsimp only at h
  rw [h12, Option.bind_some] at h
  dsimp only at h
  rw [h13, Option.bind_some] at h
  dsimp only at h
  rw [h14, Option.bind_some] at h
  dsimp only at h
  rw [r1, Option.bind_some] at h
  dsimp only at h
  rw [r2, Option.bind_some] at h
  dsimp only at h
  rw [r3, Option.bind_some] at h
  dsimp only at h
  rw [List.zip_map, List.zip_map, List.zip_map_right, List.zip_map_right, Verif.Plonk.mapM_map',
    List.map_map] at h
  obtain ⟨exprs, he, h⟩ := Option.bind_eq_some_iff.1 h
  obtain ⟨pcs, hp, h⟩ := Option.map_eq_some_iff.1 h
  cases h
  exact ⟨exprs, he, hp⟩

/-- A run of the quotient stage is also the run for any other quotient: its commitments and the
one to the random polynomial can be matched. -/
theorem quotient_steer (hs : Setup threads pr d) (ht : threads ≠ 0)
    (hw : ∀ a : A, ∃ r : F, r • pr.w = a) {e : Enc F K A} {cs : Cs F} {delta : F} {rng₁ : Rng F}
    {P₁ : Prep F} {theta beta gamma : F} {pm₁ : List (List (Permuted F × F × F))}
    {pd₁ lp₁ : List (List (Product F × F))} {ctx₁ : List (List F)} {st st' : WState F} {x : F}
    {random₁ : List F} {pieces₁ : List (List F)}
    (h : proverQuotient threads e pr d cs delta rng₁ P₁ theta beta gamma pm₁ pd₁ lp₁ ctx₁ st
      = .ok ((x, random₁, pieces₁), st')) :
    ∃ y, st'.trace = x :: y :: st.trace ∧ random₁ = randomPoly d rng₁ ∧
      (∀ p ∈ pieces₁, p.length = d.n) ∧
      Quotient threads d cs delta ⟨theta, beta, gamma, y⟩ P₁ pm₁ pd₁ lp₁ ctx₁ pieces₁ ∧
      ∀ (P₂ : Prep F) pm₂ pd₂ lp₂ ctx₂ pieces₂,
        Quotient threads d cs delta ⟨theta, beta, gamma, y⟩ P₂ pm₂ pd₂ lp₂ ctx₂ pieces₂ →
        (∀ p ∈ pieces₂, p.length = d.n) ∧ ∃ hBlind : ℕ → F,
          (pieces₂.mapIdx fun i p => commitOf pr (p, hBlind i))
            = (pieces₁.mapIdx fun i p => commitOf pr (p, rng₁.hBlind i)) ∧
          ∀ (random₂ : List F) (randomBlind : F), random₂.length = d.n →
            commitOf pr (random₂, randomBlind) = commitOf pr (random₁, rng₁.randomBlind) →
            ∀ rng₀ : Rng F, proverQuotient threads e pr d cs delta
              { rng₀ with
                randomPoly := (fun i => random₂.getD i 0)
                randomBlind := randomBlind
                hBlind := hBlind } P₂ theta beta gamma pm₂ pd₂ lp₂ ctx₂ st
              = .ok ((x, random₂, pieces₂), st') := by
  unfold proverQuotient at h
  obtain ⟨c, hc, h⟩ := panics_bind_ok h
  obtain ⟨u1, s1, p1, h⟩ := bind_ok h
  obtain ⟨y, s2, p2, h⟩ := bind_ok h
  obtain ⟨exprs, hex, h⟩ := panics_bind_ok h
  obtain ⟨pieces, hpc, h⟩ := panics_bind_ok h
  obtain ⟨cm, hcm, h⟩ := panics_bind_ok h
  obtain ⟨u3, s3, p3, h⟩ := bind_ok h
  obtain ⟨x', s4, p4, h⟩ := bind_ok h
  obtain ⟨⟨e1, e2, e3⟩, e4⟩ : (x' = x ∧ (List.range d.n).map rng₁.randomPoly = random₁ ∧
      pieces = pieces₁) ∧ s4 = st' := by
    simpa [pure, StateT.pure, Except.pure] using h
  subst e1 e2 e3 e4
  obtain ⟨l1, l2⟩ := construct_lengths hs.domain ht hpc
  have hcommit : ∀ (ps : List (List F)) (b : ℕ → F), (∀ p ∈ ps, p.length = d.n) →
      ((ps.mapIdx fun i p => (p, b i)).mapM fun (q : List F × F) => pr.commit q.1 q.2)
        = some (ps.mapIdx fun i p => commitOf pr (p, b i)) := by
    intro ps b hps
    rw [mapM_some _ (fun q => commitOf pr q) fun q hq => by
      obtain ⟨j, hj, rfl⟩ := List.mem_mapIdx.1 hq
      exact hs.commit _ _ (hps _ (List.getElem_mem _))]
    congr 1
    apply List.ext_getElem <;> simp
  have hcm' := hcommit pieces rng₁.hBlind l2
  have ecm : cm = pieces.mapIdx fun i p => commitOf pr (p, rng₁.hBlind i) :=
    Option.some.inj (hcm.symm.trans hcm')
  have hc' : c = commitOf pr ((List.range d.n).map rng₁.randomPoly, rng₁.randomBlind) :=
    Option.some.inj (hc.symm.trans (hs.commit _ _ (by simp)))
  refine ⟨y, ?_, rfl, l2, ⟨exprs, hex, hpc⟩, ?_⟩
  · rw [squeeze_ok p4, Quiet.mapM (fun c => Quiet.writePoint e c) _ _ _ _ p3, squeeze_ok p2,
      Quiet.writePoint e _ _ _ _ p1]
  rintro P₂ pm₂ pd₂ lp₂ ctx₂ pieces₂ ⟨exprs₂, hex₂, hpc₂⟩
  obtain ⟨m1, m2⟩ := construct_lengths hs.domain ht hpc₂
  choose hBlind hB using fun i => blind_exists hw (pieces₂.getD i [])
    (commitOf pr (pieces.getD i [], rng₁.hBlind i))
  have hcomm : (pieces₂.mapIdx fun i p => commitOf pr (p, hBlind i))
      = (pieces.mapIdx fun i p => commitOf pr (p, rng₁.hBlind i)) := by
    refine List.ext_getElem (by simp [l1, m1]) fun i h1 h2 => ?_
    simp only [List.length_mapIdx] at h1 h2
    have := hB i
    rw [List.getD_eq_getElem _ _ h1, List.getD_eq_getElem _ _ h2] at this
    simpa using this
  refine ⟨m2, hBlind, hcomm, fun random₂ randomBlind hr hrc rng₀ => ?_⟩
  have hrl : ((List.range d.n).map fun i => random₂.getD i 0) = random₂ := by
    refine List.ext_getElem (by simp [hr]) fun i h1 h2 => ?_
    rw [List.getElem_map, List.getElem_range]
    exact List.getD_eq_getElem _ _ h2
  unfold proverQuotient
  dsimp only
  rw [hrl]
  refine ok_bind (ok_panics (hs.commit _ _ hr) _) (ok_bind (by rw [hrc, ← hc']; exact p1)
    (ok_bind p2 (ok_bind (ok_panics hex₂ _) (ok_bind (ok_panics hpc₂ _)
      (ok_bind (ok_panics (hcommit pieces₂ hBlind m2) _) (ok_bind (a := u3) ?_ (ok_bind p4 rfl)))))))
  · rw [hcomm, ← ecm]; exact p3

end Verif.Hiding
