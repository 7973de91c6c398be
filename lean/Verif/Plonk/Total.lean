import Verif.Plonk.Props
import Verif.Protocol.Products

/-!
# The stages of the prover never fail on columns of the right shape whose lookups hold
-/

namespace Verif.Plonk

open Verif.Expr Verif.ExprEval
open Verif.Cs (Cs Column Lookup)
open Verif.Domain (Domain evalsOn)
open Verif.Evaluator (Ast denote LeavesOk LeavesOkList)
open Verif.PolyArith (evalPolynomial toPoly)
open Verif.Fft (tab)
open Verif.Multicore (chunks)
open Polynomial (C X)

variable {F : Type} [Field F] {d : Domain F}

/-- Specification: a circuit's columns have the right shape and every lookup holds on the usable
rows.  Gates and copies need not hold: the prover does not look at them. -/
structure Shaped (d : Domain F) (cs : Cs F) (fv : List (List F)) (w : Circuit F) : Prop where
  adviceLen : w.advice.length = cs.numAdvice
  instLen : w.inst.length = cs.numInstance
  advice : ∀ v ∈ w.advice, v.length = d.n
  inst : ∀ v ∈ w.inst, v.length = d.n
  lookups : ∀ l ∈ cs.lookups, ∀ i < d.n - (cs.blindingFactors + 1),
    ∃ j < d.n - (cs.blindingFactors + 1),
      l.input.map (rowVal d.n (cols fv w) i) = l.table.map (rowVal d.n (cols fv w) j)

/-- The quotient is computed whatever the constraints evaluate to. -/
theorem construct_total (hd : d.Valid) {threads : ℕ} (ht : threads ≠ 0) (polys : List (List F))
    (hp : polys ≠ []) (P : ℕ → Polynomial F)
    (hP : ∀ i p, polys[i]? = some p →
      p = evalsOn d.gCoset d.extendedOmega d.extendedLen (P i)) (exprs : List (Ast F)) (y : F)
    (ha : LeavesOkList polys.length d.n exprs) :
    ∃ pieces, Verif.Vanishing.construct threads d polys exprs y = some pieces := by
  have hn : 0 < d.n := by rw [hd.n_eq]; positivity
  have h1 := Verif.Evaluator.evaluate_extended hd threads ht polys hp P hP
    (.distributePowers exprs y) (by simpa only [LeavesOk] using ha)
  obtain ⟨a, h2, h3⟩ : ∃ a, d.divideByVanishingPoly threads (evalsOn d.gCoset d.extendedOmega
      d.extendedLen (denote d.omega P (.distributePowers exprs y))) = some a ∧
      a.length = d.extendedLen := by
    rcases h : d.divideByVanishingPoly threads (evalsOn d.gCoset d.extendedOmega
      d.extendedLen (denote d.omega P (.distributePowers exprs y))) with _ | a
    · exact absurd (by simp [evalsOn]) (((Verif.Domain.divideByVanishingPoly_spec hd threads
        ht).2 _).1 h)
    · refine ⟨a, rfl, ?_⟩
      unfold Domain.divideByVanishingPoly at h
      split_ifs at h with e1 e2
      rw [Verif.Multicore.parallelize_eq_mapIdx threads _ (fun i x =>
        x * d.tEvaluations[i % d.tEvaluations.length]'(Nat.mod_lt _ (by omega)))
        (by rw [← List.length_pos_iff]; simp [evalsOn, Domain.extendedLen]) ht] at h
      cases h
      simp [evalsOn]
  rcases h4 : d.extendedToCoeff threads a with _ | out
  · exact absurd h3 ((Verif.Domain.extendedToCoeff_spec hd threads ht a).1.2 h4)
  · exact ⟨_, by simp only [Verif.Vanishing.construct, h1, Option.bind_some, h2, h4, hn.ne',
      if_false]; rfl⟩

theorem commitProduct_total [LinearOrder F] (hd : d.Valid) {threads : ℕ} (ht : threads ≠ 0)
    {cs : Cs F} (hbf : cs.blindingFactors + 1 < d.n)
    {fv : List (List F)} {w : Circuit F} (theta beta gamma : F) {cf : List ℕ} {c : Leaves}
    (rng : ℕ → ℕ → F) (l : Lookup F) {p : Permuted F}
    {ctx₀ : List (List F)} (hp : PermutedOk d cs theta cf c fv w l p ctx₀)
    (ctx : List (List F)) (hctx : ∀ c ∈ ctx, Good d c) :
    ∃ z ctx', commitProduct threads d cs.blindingFactors beta gamma rng p ctx = some (z, ctx') ∧
      (∀ c ∈ ctx', Good d c) ∧ ctx <+: ctx' ∧ z.poly.length = d.n ∧
      At ctx' (ev d z.poly) z.leaf ∧ True := by
  obtain ⟨z, h2, h3, -⟩ := Verif.Lookup.commitProduct_eq threads ht d.n cs.blindingFactors
    (by omega) beta gamma (rng ctx.length) p.input p.table p.a p.s
    (by rw [hp.input]; simp [tab]) (by rw [hp.table]; simp [tab])
    (by rw [← hp.aRows]; simp [rows, evalsOn]) (by rw [← hp.sRows]; simp [rows, evalsOn])
  obtain ⟨q, ctx', q1, q2, q3, q4, q5, q6⟩ := commitRows_spec hd ht z h3 ctx hctx
  refine ⟨q, ctx', ?_, q2, q3, q4, q6, trivial⟩
  rw [commitProduct, h2, Option.bind_some, q1]

theorem commitPermutation_total (hd : d.Valid) {threads : ℕ} (ht : threads ≠ 0)
    {cs : Cs F} (hr : Ready cs d.n) (hbf : cs.blindingFactors + 1 < d.n)
    {w : Circuit F} (delta beta gamma : F) (rng : ℕ → ℕ → ℕ → F) (pk : Pk F) {fv : List (List F)}
    (hfv : pk.fixedValues = fv)
    (hval : ∀ c ∈ cs.permutation, (colValues fv w c).length = d.n)
    (hpl : pk.permutations.length = cs.permutation.length)
    (hpn : ∀ p ∈ pk.permutations, p.length = d.n)
    (ctx : List (List F)) (hctx : ∀ c ∈ ctx, Good d c) :
    ∃ zs ctx', commitPermutation threads d cs delta beta gamma rng pk w ctx = some (zs, ctx') ∧
      (∀ c ∈ ctx', Good d c) ∧ ctx <+: ctx' ∧
      (∀ z ∈ zs, z.poly.length = d.n ∧ At ctx' (ev d z.poly) z.leaf) ∧ True := by
  subst hfv
  have h3 := three_le_degree cs
  obtain ⟨zs, h1, -, h2, -⟩ := Verif.Permutation.commitSets_spec threads ht d.omega delta beta
    gamma d.n cs.blindingFactors (by omega) (rng ctx.length) (colValues pk.fixedValues w)
    (cs.degree - 2) (by omega) cs.permutation pk.permutations hpl 1 1 0 hval hpn
  obtain ⟨z, ctx', z1, z2, z3, z4, z5⟩ := mapS_zip (f := commitRows threads d)
    (I := fun c => ∀ p ∈ c, Good d p) (le := fun a b => a <+: b)
    (R := fun v p c => p.poly.length = d.n ∧ rows d p.poly = v ∧ At c (ev d p.poly) p.leaf)
    (fun s => List.prefix_refl s) (fun _ _ _ h h' => h.trans h')
    (fun _ _ _ _ h h' => ⟨h'.1, h'.2.1, h'.2.2.mono h⟩) zs
    (fun v hv c hc => by
      obtain ⟨q, ctx', q1, q2, q3, q4, q5, q6⟩ := commitRows_spec hd ht v (h2 v hv) c hc
      exact ⟨q, ctx', q1, q2, q3, q4, q5, q6⟩) ctx hctx
  have hall : cs.permutation.all (colOk cs) = true :=
    List.all_eq_true.2 fun c hc => (hr.perm c hc).1
  refine ⟨z.map Prod.snd, ctx', ?_, z3, z4, ?_, trivial⟩
  · rw [commitPermutation, if_pos hall, Verif.Permutation.commit, if_neg (by omega)]
    dsimp only
    rw [h1, Option.bind_some, z2]
  · intro p hp
    obtain ⟨x, hx, rfl⟩ := List.mem_map.1 hp
    exact ⟨(z5 x hx).1, (z5 x hx).2.2⟩

set_option maxHeartbeats 400000 in
/-- Every stage of the prover between two challenges succeeds, whatever the challenges. -/
theorem stages_total [LinearOrder F] (hd : d.Valid) (threads : ℕ) (ht : threads ≠ 0)
    (cs : Cs F) (hr : Ready cs d.n)
    (hbf : cs.blindingFactors + 1 < d.n) (hn : d.n < 2 ^ 32)
    (hcols : cs.lookups ≠ [] → cs.numFixed + cs.numAdvice + cs.numInstance ≠ 0) (delta : F)
    (rngA : ℕ → ℕ → F) (rngP : ℕ → ℕ → ℕ → F) (rngZ : ℕ → ℕ → F) (fv : List (List F))
    (hfl : fv.length = cs.numFixed) (hf : ∀ v ∈ fv, v.length = d.n)
    (perms : List (List F)) (hpl : perms.length = cs.permutation.length)
    (hpn : ∀ p ∈ perms, p.length = d.n) (pk : Pk F)
    (hpk : keygenPk threads d cs.blindingFactors fv perms = some pk)
    (ws : List (Circuit F)) (hsat : ∀ w ∈ ws, Shaped d cs fv w) :
    ∃ P, Verif.Protocol.prepare threads d pk ws = some P ∧
    ∀ theta, ∃ permuted ctx₁,
      mapS (fun (q : (List ℕ × List ℕ) × List ℕ × List ℕ) =>
        mapS (commitPermuted threads d cs.blindingFactors theta rngA P.vctx P.vf
          ⟨q.2.1, q.1.1⟩ P.cf ⟨q.2.2, q.1.2⟩) cs.lookups)
        ((P.vi.zip P.ci).zip (P.va.zip P.ca)) P.ctx = some (permuted, ctx₁) ∧
    ∀ beta gamma, ∃ products ctx₂ lookupProducts ctx,
      mapS (commitPermutation threads d cs delta beta gamma rngP pk) ws ctx₁
        = some (products, ctx₂) ∧
      mapS (fun ps => mapS (commitProduct threads d cs.blindingFactors beta gamma rngZ) ps)
        permuted ctx₂ = some (lookupProducts, ctx) ∧
    ∀ y, ∃ exprs pieces,
      (((P.ca.zip P.ci).zip (products.zip (permuted.zip lookupProducts))).mapM
        fun (q : (List ℕ × List ℕ) × List (Product F) × List (Permuted F) × List (Product F)) =>
        proverExpressions cs delta ⟨theta, beta, gamma, y⟩ P.cf ⟨q.1.1, q.1.2⟩ P.perm P.l0
          P.lBlind P.lLast q.2.1 (q.2.2.1.zip q.2.2.2)) = some exprs ∧
      Verif.Vanishing.construct threads d ctx exprs.flatten y = some pieces := by
  have h3 := three_le_degree cs
  obtain ⟨pk', fp, pp, p0, pB, pL, hpk', ⟨k1, k2, k3, k4, k5, k6, k7, k8, k9⟩, ⟨fpl, fpr⟩, ⟨ppl, ppr⟩, ⟨p0l, pBl, pLl⟩, i0, iL, iB⟩ :=
    keygenPk_spec hd ht cs.blindingFactors hbf fv perms hf hpn
  rw [hpk] at hpk'
  cases hpk'
  -- column polynomials
  obtain ⟨IP, hIP⟩ : ∃ IP : Circuit F → List (List F),
      ∀ w, IP w = (toCoeffs threads d w.inst).getD [] := ⟨_, fun _ => rfl⟩
  obtain ⟨AP, hAP⟩ : ∃ AP : Circuit F → List (List F),
      ∀ w, AP w = (toCoeffs threads d w.advice).getD [] := ⟨_, fun _ => rfl⟩
  have hI : ∀ w ∈ ws, toCoeffs threads d w.inst = some (IP w) ∧
      toCosets threads d (IP w) = some ((IP w).map (ev d)) ∧ (∀ p ∈ IP w, p.length = d.n) ∧
      (IP w).map (rows d) = w.inst := by
    intro w hw
    obtain ⟨ps, a1, a2, a3, a4⟩ := columns_spec hd threads ht w.inst (hsat w hw).inst
    have : IP w = ps := by rw [hIP, a1]; rfl
    rw [this]; exact ⟨a1, a2, a3, a4⟩
  have hA : ∀ w ∈ ws, toCoeffs threads d w.advice = some (AP w) ∧
      toCosets threads d (AP w) = some ((AP w).map (ev d)) ∧ (∀ p ∈ AP w, p.length = d.n) ∧
      (AP w).map (rows d) = w.advice := by
    intro w hw
    obtain ⟨ps, a1, a2, a3, a4⟩ := columns_spec hd threads ht w.advice (hsat w hw).advice
    have : AP w = ps := by rw [hAP, a1]; rfl
    rw [this]; exact ⟨a1, a2, a3, a4⟩
  clear hIP hAP
  have hgoodmap : ∀ ps : List (List F), (∀ p ∈ ps, p.length = d.n) →
      ∀ c ∈ ps.map (ev d), Good d c := by
    intro ps h c hc
    obtain ⟨p, hp, rfl⟩ := List.mem_map.1 hc
    exact ⟨p, h p hp, rfl⟩
  -- value evaluator
  obtain ⟨vf, vctx₀, v1, v2, -, v4⟩ := registerAll_spec (Q := VGood d) fv
    (fun v hv => vgood hd (hf v hv)) [] (by simp)
  obtain ⟨z₁, vctx₁, E1, va1, va2, va3, va4⟩ := registerCols (Q := VGood d) Circuit.advice ws
    (fun w hw v hv => vgood hd ((hsat w hw).advice v hv)) vctx₀ v2
  have m1 : ∀ x ∈ z₁, x.1 ∈ ws := fun x hx => E1 ▸ List.mem_map_of_mem hx
  obtain ⟨z₂, vctx, E2, vi1, vi2, vi3, vi4⟩ := registerCols (Q := VGood d)
    (fun x : Circuit F × List ℕ => x.1.inst) z₁
    (fun x hx v hv => vgood hd ((hsat x.1 (m1 x hx)).inst v hv)) vctx₁ va2
  have m2 : ∀ x ∈ z₂, x.1 ∈ z₁ := fun x hx => E2 ▸ List.mem_map_of_mem hx
  -- coset evaluator
  obtain ⟨cf, ctx₀, c1, c2, -, c4⟩ := registerAll_spec (Q := Good d) (fp.map (ev d))
    (hgoodmap fp fpl) [] (by simp)
  obtain ⟨z₃, ctx₁, E3, ca1, ca2, ca3, ca4⟩ := registerCols (Q := Good d)
    (fun x : (Circuit F × List ℕ) × List ℕ => (AP x.1.1).map (ev d)) z₂
    (fun x hx => hgoodmap _ (hA x.1.1 (m1 _ (m2 x hx))).2.2.1) ctx₀ c2
  have m3 : ∀ x ∈ z₃, x.1 ∈ z₂ := fun x hx => E3 ▸ List.mem_map_of_mem hx
  obtain ⟨z₄, ctx₂, E4, ci1, ci2, ci3, ci4⟩ := registerCols (Q := Good d)
    (fun x : ((Circuit F × List ℕ) × List ℕ) × List ℕ => (IP x.1.1.1).map (ev d)) z₃
    (fun x hx => hgoodmap _ (hI x.1.1.1 (m1 _ (m2 _ (m3 x hx)))).2.2.1) ctx₁ ca2
  have m4 : ∀ x ∈ z₄, x.1 ∈ z₃ := fun x hx => E4 ▸ List.mem_map_of_mem hx
  obtain ⟨perm, ctx₃, pm1, pm2, pm3, pm4⟩ := registerAll_spec (Q := Good d) (pp.map (ev d))
    (hgoodmap pp ppl) ctx₂ ci2
  have g4 := good_append pm2 p0l
  have g5 := good_append g4 pBl
  have g6 := good_append g5 pLl
  obtain ⟨ctx₄, hctx₄⟩ : ∃ c, c = ctx₃ ++ [ev d p0] ++ [ev d pB] ++ [ev d pL] := ⟨_, rfl⟩
  rw [← hctx₄] at g6
  have le34 : ctx₃ <+: ctx₄ := by
    rw [hctx₄]
    exact ((List.prefix_append _ _).trans (List.prefix_append _ _)).trans (List.prefix_append _ _)
  have at0 : At ctx₄ (ev d p0) ctx₃.length := by rw [hctx₄]; simp [At]
  have atB : At ctx₄ (ev d pB) (ctx₃ ++ [ev d p0]).length := by rw [hctx₄]; simp [At]
  have atL : At ctx₄ (ev d pL) (ctx₃ ++ [ev d p0] ++ [ev d pB]).length := by
    rw [hctx₄]; simp [At]
  have fpn : fp.length = cs.numFixed := by rw [← hfl, ← fpr, List.length_map]
  have hcfl : cf.length = cs.numFixed := by rw [← c4.length_eq, List.length_map, fpn]
  have hmem4 : ∀ x ∈ z₄, x.1.1.1.1 ∈ ws := fun x hx => m1 _ (m2 _ (m3 _ (m4 x hx)))
  have vf' := At.forall₂_mono (At.forall₂_mono v4 va3) vi3
  have va' : ∀ x ∈ z₄, List.Forall₂ (At vctx) x.1.1.1.1.advice x.1.1.1.2 := fun x hx =>
    At.forall₂_mono (va4 x.1.1.1 (m2 _ (m3 _ (m4 x hx)))) vi3
  have vi' : ∀ x ∈ z₄, List.Forall₂ (At vctx) x.1.1.1.1.inst x.1.1.2 := fun x hx =>
    vi4 x.1.1 (m3 _ (m4 x hx))
  have ca' : ∀ x ∈ z₄, List.Forall₂ (At ctx₂) ((AP x.1.1.1.1).map (ev d)) x.1.2 := fun x hx =>
    At.forall₂_mono (ca4 x.1 (m4 x hx)) ci3
  have apn : ∀ w ∈ ws, (AP w).length = cs.numAdvice ∧ (IP w).length = cs.numInstance := by
    intro w hw
    have e1 := (hA w hw).2.2.2
    have e2 := (hI w hw).2.2.2
    have e3 := hsat w hw
    exact ⟨by rw [← e3.adviceLen, ← e1, List.length_map],
      by rw [← e3.instLen, ← e2, List.length_map]⟩
  have s1 : (ws.mapM fun w => toCoeffs threads d w.inst) = some (ws.map IP) :=
    Verif.Evaluator.mapM_eq_some _ fun w hw => (hI w hw).1
  have s2 : ((ws.map IP).mapM fun ps => toCosets threads d ps)
      = some ((ws.map IP).map fun ps => ps.map (ev d)) := by
    refine Verif.Evaluator.mapM_eq_some _ ?_
    intro p hp
    obtain ⟨w, hw, rfl⟩ := List.mem_map.1 hp
    exact (hI w hw).2.1
  have s3 : (ws.mapM fun w => toCoeffs threads d w.advice) = some (ws.map AP) :=
    Verif.Evaluator.mapM_eq_some _ fun w hw => (hA w hw).1
  have s4 : ((ws.map AP).mapM fun ps => toCosets threads d ps)
      = some ((ws.map AP).map fun ps => ps.map (ev d)) := by
    refine Verif.Evaluator.mapM_eq_some _ ?_
    intro p hp
    obtain ⟨w, hw, rfl⟩ := List.mem_map.1 hp
    exact (hA w hw).2.1
  have s5 : mapS (fun w : Circuit F => mapS register w.inst) ws vctx₁
      = some (z₂.map Prod.snd, vctx) := by rw [← vi1, ← E1, mapS_map]
  have s6 : mapS (fun ps => mapS register ps) ((ws.map AP).map fun ps => ps.map (ev d)) ctx₀
      = some (z₃.map Prod.snd, ctx₁) := by
    rw [← ca1, ← E1, ← E2]; simp only [mapS_map]
  have s7 : mapS (fun ps => mapS register ps) ((ws.map IP).map fun ps => ps.map (ev d)) ctx₁
      = some (z₄.map Prod.snd, ctx₂) := by
    rw [← ci1, ← E1, ← E2, ← E3]; simp only [mapS_map]
  have hr4 : (register (ev d pL) (ctx₃ ++ [ev d p0] ++ [ev d pB]))
      = some ((ctx₃ ++ [ev d p0] ++ [ev d pB]).length, ctx₄) := by rw [hctx₄]; rfl
  refine ⟨⟨ws.map IP, ws.map AP, vf, z₁.map Prod.snd, z₂.map Prod.snd, vctx, cf, z₃.map Prod.snd,
    z₄.map Prod.snd, perm, ctx₃.length, (ctx₃ ++ [ev d p0]).length,
    (ctx₃ ++ [ev d p0] ++ [ev d pB]).length, ctx₄⟩, ?_, ?_⟩
  · unfold Verif.Protocol.prepare
    rw [k1, k3, k6, k7, k8, k9, s1, Option.bind_some, s2, Option.bind_some, s3, Option.bind_some, s4, Option.bind_some, v1,
      Option.bind_some]
    dsimp only
    rw [va1, Option.bind_some]
    dsimp only
    rw [s5, Option.bind_some]
    dsimp only
    rw [c1, Option.bind_some]
    dsimp only
    rw [s6, Option.bind_some]
    dsimp only
    rw [s7, Option.bind_some]
    dsimp only
    rw [pm1, Option.bind_some]
    dsimp only
    rw [register, Option.bind_some]
    dsimp only
    rw [register, Option.bind_some]
    dsimp only
    rw [hr4, Option.map_some]
  dsimp only
  intro theta
  have hmem : ∀ w ∈ ws, ∀ l ∈ cs.lookups, ∀ i < d.n - (cs.blindingFactors + 1),
      ∃ j < d.n - (cs.blindingFactors + 1),
      Verif.Lookup.inputVal l d.n theta (cols fv w) i
        = Verif.Lookup.tableVal l d.n theta (cols fv w) j := by
    intro w hw l hl i hi
    obtain ⟨j, hj, h⟩ := (hsat w hw).lookups l hl i hi
    exact ⟨j, hj, by rw [Verif.Lookup.inputVal, Verif.Lookup.tableVal, h]⟩
  -- lookups
  obtain ⟨z₅, ctx₅, E5, pe1, pe2, pe3, pe4⟩ := mapS_zip
    (f := fun (x : (((Circuit F × List ℕ) × List ℕ) × List ℕ) × List ℕ) =>
      mapS (commitPermuted threads d cs.blindingFactors theta rngA vctx vf ⟨x.1.1.1.2, x.1.1.2⟩ cf
        ⟨x.1.2, x.2⟩) cs.lookups)
    (I := fun c => ∀ p ∈ c, Good d p) (le := fun a b => a <+: b)
    (R := fun x ps c => List.Forall₂ (fun l p =>
      PermutedOk d cs theta cf ⟨x.1.2, x.2⟩ fv x.1.1.1.1 l p c) cs.lookups ps)
    (fun s => List.prefix_refl s) (fun _ _ _ h h' => h.trans h')
    (fun _ _ _ _ h h' => h'.imp fun _ _ h' => h'.mono h) z₄
    (by
      intro x hx c hc
      have hw := hmem4 x hx
      have hs := hsat _ hw
      refine mapS_forall₂ (f := commitPermuted threads d cs.blindingFactors theta rngA vctx vf
          ⟨x.1.1.1.2, x.1.1.2⟩ cf ⟨x.1.2, x.2⟩) (I := fun c => ∀ p ∈ c, Good d p)
        (le := fun a b => a <+: b)
        (R := fun l p c => PermutedOk d cs theta cf ⟨x.1.2, x.2⟩ fv x.1.1.1.1 l p c)
        (fun s => List.prefix_refl s) (fun _ _ _ h h' => h.trans h') (fun _ _ _ _ h h' => h'.mono h)
        cs.lookups ?_ c hc
      intro l hl c hc
      have hne : vctx ≠ [] := by
        rintro rfl
        have e0 : ∀ {ps : List (List F)} {is : List ℕ}, List.Forall₂ (At []) ps is →
            ps.length = 0 := by
          intro ps is h
          cases h with
          | nil => rfl
          | cons h _ => simp [At] at h
        have e1 := e0 vf'
        have e2 := e0 (va' x hx)
        have e3 := e0 (vi' x hx)
        have := hcols (List.ne_nil_of_mem hl)
        rw [hfl] at e1
        rw [hs.adviceLen] at e2
        rw [hs.instLen] at e3
        omega
      exact commitPermuted_spec hd ht hr hbf hn hne vi2 vf' hfl (va' x hx) hs.adviceLen (vi' x hx)
        hs.instLen theta hcfl
        (by rw [← (ca' x hx).length_eq, List.length_map, (apn _ hw).1])
        (by rw [← (ci4 x hx).length_eq, List.length_map, (apn _ hw).2]) rngA l hl
        (hmem _ hw l hl) c hc) ctx₄ g6
  have m5 : ∀ x ∈ z₅, x.1 ∈ z₄ := fun x hx => E5 ▸ List.mem_map_of_mem hx
  have hmem5 : ∀ x ∈ z₅, x.1.1.1.1.1 ∈ ws := fun x hx => hmem4 _ (m5 x hx)
  have s8 : mapS (fun (q : (List ℕ × List ℕ) × List ℕ × List ℕ) =>
      mapS (commitPermuted threads d cs.blindingFactors theta rngA vctx vf ⟨q.2.1, q.1.1⟩ cf
        ⟨q.2.2, q.1.2⟩) cs.lookups)
      (((z₂.map Prod.snd).zip (z₄.map Prod.snd)).zip ((z₁.map Prod.snd).zip (z₃.map Prod.snd))) ctx₄
      = some (z₅.map Prod.snd, ctx₅) := by
    rw [← pe1, ← E2, ← E3, ← E4]
    simp only [List.map_map, List.zip_map', mapS_map, Function.comp_apply]
  refine ⟨z₅.map Prod.snd, ctx₅, s8, ?_⟩
  intro beta gamma
  -- permutations
  obtain ⟨z₆, ctx₆, E6, pr1, pr2, pr3, pr4⟩ := mapS_zip
    (f := fun (x : ((((Circuit F × List ℕ) × List ℕ) × List ℕ) × List ℕ) × List (Permuted F)) =>
      commitPermutation threads d cs delta beta gamma rngP pk x.1.1.1.1.1)
    (I := fun c => ∀ p ∈ c, Good d p) (le := fun a b => a <+: b)
    (R := fun x zs c => (∀ z ∈ zs, z.poly.length = d.n ∧ At c (ev d z.poly) z.leaf) ∧
      True)
    (fun s => List.prefix_refl s) (fun _ _ _ h h' => h.trans h')
    (by
      rintro _ _ _ _ h ⟨h1, h2⟩
      exact ⟨fun z hz => ⟨(h1 z hz).1, (h1 z hz).2.mono h⟩, h2⟩) z₅
    (by
      intro x hx c hc
      have hw := hmem5 x hx
      have hs := hsat _ hw
      exact commitPermutation_total hd ht hr hbf delta beta gamma rngP pk k1
        (fun k hk => colValues_length hfl hs.adviceLen hs.instLen hf hs.advice hs.inst k
          (hr.perm k hk).1) (by rw [k4]; exact hpl) (by rw [k4]; exact hpn) c hc) ctx₅ pe2
  have m6 : ∀ x ∈ z₆, x.1 ∈ z₅ := fun x hx => E6 ▸ List.mem_map_of_mem hx
  have hmem6 : ∀ x ∈ z₆, x.1.1.1.1.1.1 ∈ ws := fun x hx => hmem5 _ (m6 x hx)
  -- lookup products
  obtain ⟨z₇, ctx, E7, lp1, lp2, lp3, lp4⟩ := mapS_zip
    (f := fun (x : (((((Circuit F × List ℕ) × List ℕ) × List ℕ) × List ℕ) × List (Permuted F)) ×
        List (Product F)) =>
      mapS (commitProduct threads d cs.blindingFactors beta gamma rngZ) x.1.2)
    (I := fun c => ∀ p ∈ c, Good d p) (le := fun a b => a <+: b)
    (R := fun x zs c => List.Forall₂ (fun _ z => z.poly.length = d.n ∧ At c (ev d z.poly) z.leaf ∧
      True) x.1.2 zs)
    (fun s => List.prefix_refl s) (fun _ _ _ h h' => h.trans h')
    (by
      intro _ _ _ _ h h'
      refine h'.imp ?_
      rintro _ _ ⟨h1, h2, h3⟩
      exact ⟨h1, h2.mono h, h3⟩) z₆
    (by
      intro x hx c hc
      have hperm := pe4 x.1 (m6 x hx)
      refine mapS_forall₂ (f := commitProduct threads d cs.blindingFactors beta gamma rngZ)
        (I := fun c => ∀ p ∈ c, Good d p) (le := fun a b => a <+: b)
        (R := fun p z c => z.poly.length = d.n ∧ At c (ev d z.poly) z.leaf ∧ True)
        (fun s => List.prefix_refl s) (fun _ _ _ h h' => h.trans h')
        (by
          rintro _ _ _ _ h ⟨h1, h2, h3⟩
          exact ⟨h1, h2.mono h, h3⟩) x.1.2 ?_ c hc
      intro p hp c hc
      obtain ⟨l, hl, hpl⟩ := forall₂_right hperm p hp
      exact commitProduct_total hd ht hbf theta beta gamma rngZ l hpl c hc) ctx₆ pr2
  have m7 : ∀ x ∈ z₇, x.1 ∈ z₆ := fun x hx => E7 ▸ List.mem_map_of_mem hx
  have hmem7 : ∀ x ∈ z₇, x.1.1.1.1.1.1.1 ∈ ws := fun x hx => hmem6 _ (m7 x hx)
  have le47 : ctx₄ <+: ctx := (pe3.trans pr3).trans lp3
  -- the coefficients behind the leaves
  obtain ⟨pc, pcl, pce, pcat⟩ := exists_coeffs hd ctx lp2
  have hbnd : ∀ {ps : List (List F)} {is : List ℕ} {c : List (List F)}, c <+: ctx →
      (∀ p ∈ ps, p.length = d.n) → List.Forall₂ (At c) (ps.map (ev d)) is → Bnd pc ps is := by
    intro ps is c hc hl h
    rw [List.forall₂_map_left_iff] at h
    have h' := (List.forall₂_and_left _ _).2 ⟨hl, h⟩
    exact h'.imp fun p i hp => pcat p i hp.1 (hp.2.mono hc)
  have hltm : ∀ {p : List F} {i : ℕ} {c : List (List F)}, c <+: ctx → At c p i → i < ctx.length := by
    intro p i c hc h
    exact (List.getElem?_eq_some_iff.1 (h.mono hc)).1
  have hlt : ∀ {ps : List (List F)} {is : List ℕ} {c : List (List F)}, c <+: ctx →
      List.Forall₂ (At c) ps is → ∀ i ∈ is, i < ctx.length := by
    intro ps is c hc h i hi
    obtain ⟨p, -, hat⟩ := forall₂_right h i hi
    exact hltm hc hat
  have le57 : ctx₅ <+: ctx := pr3.trans lp3
  have le37 : ctx₃ <+: ctx := le34.trans le47
  have le27 : ctx₂ <+: ctx := pm3.trans le37
  have le07 : ctx₀ <+: ctx := (ca3.trans ci3).trans le27
  have ppn : pp.length = cs.permutation.length := by
    rw [← List.length_map (f := rows d), ppr]; exact hpl
  have hb : ∀ y, ∀ x ∈ z₇, Bound d cs ⟨theta, beta, gamma, y⟩ pc ctx.length fp cf pp perm ctx₃.length
      (ctx₃ ++ [ev d p0]).length (ctx₃ ++ [ev d p0] ++ [ev d pB]).length (AP x.1.1.1.1.1.1.1)
      (IP x.1.1.1.1.1.1.1) ⟨x.1.1.1.1.2, x.1.1.1.2⟩ x.1.2 (x.1.1.2.zip x.2) := by
    intro y x hx
    have hw := hmem7 x hx
    have hx6 := m7 x hx
    have hx5 := m6 _ hx6
    have hx4 := m5 _ hx5
    have hz := forall₂_zip (pe4 _ hx5) (lp4 x hx)
    refine
      { hF := hbnd le07 fpl c4, fixedLen := fpn,
        hA := hbnd le27 (hA _ hw).2.2.1 (ca' _ hx4), adviceLen := (apn _ hw).1,
        hI := hbnd le27 (hI _ hw).2.2.1 (ci4 _ hx4), instLen := (apn _ hw).2,
        hP := hbnd le37 ppl pm4, permLen := ppn, hZ := ?_, hK := ?_,
        ltF := hlt le07 c4, ltA := hlt le27 (ca' _ hx4), ltI := hlt le27 (ci4 _ hx4),
        ltP := hlt le37 pm4, ltL := ⟨hltm le47 at0, hltm le47 atB, hltm le47 atL⟩, ltZ := ?_,
        ltK := ?_ }
    · intro p hp
      obtain ⟨a1, a2⟩ := (pr4 _ hx6).1 p hp
      exact pcat _ _ a1 (a2.mono lp3)
    · refine hz.imp ?_
      rintro l p ⟨a, b1, b2, -⟩
      exact ⟨a.inputCoset, a.tableCoset, pcat _ _ a.aLen (a.aAt.mono le57),
        pcat _ _ a.sLen (a.sAt.mono le57), pcat _ _ b1 b2⟩
    · intro p hp
      exact hltm lp3 ((pr4 _ hx6).1 p hp).2
    · intro p hp
      obtain ⟨l, -, a, b1, b2, -⟩ := forall₂_right hz p hp
      exact ⟨hltm le57 a.aAt, hltm le57 a.sAt, hltm (List.prefix_refl _) b2⟩
  have L6 : z₆ = z₇.map fun x => x.1 := E7.symm
  have L5 : z₅ = z₇.map fun x => x.1.1 := by rw [← E6, L6, List.map_map]; rfl
  have L4 : z₄ = z₇.map fun x => x.1.1.1 := by rw [← E5, L5, List.map_map]; rfl
  have L3 : z₃ = z₇.map fun x => x.1.1.1.1 := by rw [← E4, L4, List.map_map]; rfl
  have L2 : z₂ = z₇.map fun x => x.1.1.1.1.1 := by rw [← E3, L3, List.map_map]; rfl
  have L1 : z₁ = z₇.map fun x => x.1.1.1.1.1.1 := by rw [← E2, L2, List.map_map]; rfl
  have Lw : ws = z₇.map fun x => x.1.1.1.1.1.1.1 := by rw [← E1, L1, List.map_map]; rfl
  have s9 : mapS (commitPermutation threads d cs delta beta gamma rngP pk) ws ctx₅
      = some (z₆.map Prod.snd, ctx₆) := by
    rw [← pr1, ← E1, ← E2, ← E3, ← E4, ← E5]; simp only [mapS_map]
  have s10 : mapS (fun ps => mapS (commitProduct threads d cs.blindingFactors beta gamma rngZ)
      ps) (z₅.map Prod.snd) ctx₆ = some (z₇.map Prod.snd, ctx) := by
    rw [← lp1, ← E6]; simp only [mapS_map]
  refine ⟨z₆.map Prod.snd, ctx₆, z₇.map Prod.snd, ctx, s9, s10, ?_⟩
  intro y
  obtain ⟨E, hE⟩ : ∃ E : (((((((Circuit F × List ℕ) × List ℕ) × List ℕ) × List ℕ) ×
      List (Permuted F)) × List (Product F)) × List (Product F)) → List (Ast F),
      ∀ x, E x = (proverExpressions cs delta ⟨theta, beta, gamma, y⟩ cf ⟨x.1.1.1.1.2, x.1.1.1.2⟩ perm ctx₃.length
      (ctx₃ ++ [ev d p0]).length (ctx₃ ++ [ev d p0] ++ [ev d pB]).length x.1.2
      (x.1.1.2.zip x.2)).getD [] := ⟨_, fun _ => rfl⟩
  have hEx : ∀ x ∈ z₇, proverExpressions cs delta ⟨theta, beta, gamma, y⟩ cf ⟨x.1.1.1.1.2, x.1.1.1.2⟩ perm ctx₃.length
      (ctx₃ ++ [ev d p0]).length (ctx₃ ++ [ev d p0] ++ [ev d pB]).length x.1.2
      (x.1.1.2.zip x.2) = some (E x) ∧ ∀ t ∈ E x, LeavesOk ctx.length d.n t := by
    intro x hx
    obtain ⟨as, h2, h3⟩ : ∃ as, proverExpressions cs delta ⟨theta, beta, gamma, y⟩ cf ⟨x.1.1.1.1.2, x.1.1.1.2⟩ perm
        ctx₃.length (ctx₃ ++ [ev d p0]).length (ctx₃ ++ [ev d p0] ++ [ev d pB]).length x.1.2
        (x.1.1.2.zip x.2) = some as ∧ ∀ t ∈ as, LeavesOk ctx.length d.n t := by
      obtain ⟨gs, -, h2, h3⟩ := prover_some (hb y x hx) hr (by omega) (by omega) delta
      exact ⟨_, h2, h3⟩
    have : E x = as := by rw [hE, h2]; rfl
    rw [this]
    exact ⟨h2, h3⟩
  have hne : ctx ≠ [] := by
    intro h
    have := hltm le47 at0
    rw [h] at this
    simp at this
  have hlv : LeavesOkList ctx.length d.n (z₇.map E).flatten := by
    refine leavesOkList ?_
    intro t ht'
    simp only [List.mem_map, List.mem_flatten] at ht'
    obtain ⟨l, ⟨x, hx, rfl⟩, ha⟩ := ht'
    exact (hEx x hx).2 t ha
  obtain ⟨pieces, hc1⟩ := construct_total hd ht ctx hne (fun i => toPoly (pc i)) pce _ y hlv
  have s11 : ((((z₃.map Prod.snd).zip (z₄.map Prod.snd)).zip
      ((z₆.map Prod.snd).zip ((z₅.map Prod.snd).zip (z₇.map Prod.snd)))).mapM
      fun (q : (List ℕ × List ℕ) × List (Product F) × List (Permuted F) × List (Product F)) =>
      proverExpressions cs delta ⟨theta, beta, gamma, y⟩ cf ⟨q.1.1, q.1.2⟩ perm ctx₃.length (ctx₃ ++ [ev d p0]).length
        (ctx₃ ++ [ev d p0] ++ [ev d pB]).length q.2.1 (q.2.2.1.zip q.2.2.2)) = some (z₇.map E) := by
    rw [L3, L4, L5, L6]
    simp only [List.map_map, List.zip_map', mapM_map', Function.comp_apply]
    exact Verif.Evaluator.mapM_eq_some _ fun x hx => (hEx x hx).1
  exact ⟨_, pieces, s11, hc1⟩

end Verif.Plonk
