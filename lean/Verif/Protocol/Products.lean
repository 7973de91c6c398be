import Verif.Protocol.Stages

/-!
# The stages from `theta` to `x`
-/

namespace Verif.Protocol

open Verif.Cs (Cs Column Lookup)
open Verif.Domain (Domain)
open Verif.PolyArith (evalPolynomial)
open Verif.Plonk (Pk Circuit Leaves Permuted Product Challenges CircuitProof CircuitEvals mapS
  register)
open Verif.Msm Verif.Transcript Verif.Multicore
open Verif.Multiopen (Query Commitment commitOf)
open Verif.Ipa (ParamsOk)

variable {F K A : Type} [Field F] [AddCommGroup A] [Module F A] [Field K]
variable {Good : List F → Prop} {tr : List F} {threads : ℕ} {pr : Params A} {d : Domain F}

theorem lag_commit (hs : Setup threads pr d) (ht : threads ≠ 0) {v p : List F}
    (h : d.lagrangeToCoeff threads v = some p) (b : F) :
    pr.commitLagrange v b = some (commitOf pr (p, b)) ∧ p.length = d.n := by
  have hv : v.length = d.n := by
    by_contra hne
    rw [(Verif.Domain.lagrangeToCoeff_spec hs.domain threads ht v).1.1 hne] at h
    cases h
  obtain ⟨h1, h2⟩ := coeffs_spec hs ht v hv
  rw [h] at h1
  cases h1
  exact ⟨hs.lagrange v b hv, h2⟩

theorem commitPermuted_inv [LinearOrder F] {bf : ℕ} {theta : F}
    {rng : ℕ → ℕ → F} {vctx : List (List F)} {vf : List ℕ} {v : Leaves} {cf : List ℕ} {c : Leaves}
    {l : Lookup F} {ctx : List (List F)} {r : Permuted F × List (List F)}
    (h : Verif.Plonk.commitPermuted threads d bf theta rng vctx vf v cf c l ctx = some r) :
    d.lagrangeToCoeff threads r.1.a = some r.1.aPoly ∧
      d.lagrangeToCoeff threads r.1.s = some r.1.sPoly := by
  unfold Verif.Plonk.commitPermuted at h
  obtain ⟨_, -, h⟩ := Option.bind_eq_some_iff.1 h
  obtain ⟨_, -, h⟩ := Option.bind_eq_some_iff.1 h
  obtain ⟨_, -, h⟩ := Option.bind_eq_some_iff.1 h
  obtain ⟨_, -, h⟩ := Option.bind_eq_some_iff.1 h
  obtain ⟨_, -, h⟩ := Option.bind_eq_some_iff.1 h
  obtain ⟨_, -, h⟩ := Option.bind_eq_some_iff.1 h
  obtain ⟨_, -, h⟩ := Option.bind_eq_some_iff.1 h
  obtain ⟨_, h1, h⟩ := Option.bind_eq_some_iff.1 h
  obtain ⟨_, h2, h⟩ := Option.bind_eq_some_iff.1 h
  obtain ⟨_, -, h⟩ := Option.bind_eq_some_iff.1 h
  obtain ⟨_, -, h⟩ := Option.bind_eq_some_iff.1 h
  obtain ⟨_, -, h⟩ := Option.bind_eq_some_iff.1 h
  obtain ⟨_, -, rfl⟩ := Option.map_eq_some_iff.1 h
  exact ⟨h1, h2⟩

theorem commitRows_inv {z : List F} {ctx : List (List F)} {r : Product F × List (List F)}
    (h : Verif.Plonk.commitRows threads d z ctx = some r) :
    d.lagrangeToCoeff threads z = some r.1.poly := by
  unfold Verif.Plonk.commitRows at h
  obtain ⟨_, h1, h⟩ := Option.bind_eq_some_iff.1 h
  obtain ⟨_, -, h⟩ := Option.bind_eq_some_iff.1 h
  obtain ⟨_, -, rfl⟩ := Option.map_eq_some_iff.1 h
  exact h1

/-- The commitments to the permuted columns of a lookup. -/
def permutedComms (pr : Params A) (p : Permuted F × F × F) : A × A :=
  (commitOf pr (p.1.aPoly, p.2.1), commitOf pr (p.1.sPoly, p.2.2))

theorem commitPermutedW_sim [LinearOrder F] (hG : Closed Good) {e : Enc F K A} (he : e.Valid)
    (hs : Setup threads pr d) (ht : threads ≠ 0) (bf : ℕ) (theta : F) (rng : Rng F) (P : Prep F)
    (v c : Leaves) (l : Lookup F) (ctx : List (List F)) :
    Sim Good tr (commitPermutedW threads e pr d bf theta rng P v c l ctx)
      (do
        let a ← R.readPoint e
        let s ← R.readPoint e
        pure (a, s)) fun p ds t => t = tr ∧
      Verif.Plonk.commitPermuted threads d bf theta rng.permuted P.vctx P.vf v P.cf c l ctx
        = some (p.1.1, p.2) ∧ ds = permutedComms pr p.1 ∧
      (p.1.1.aPoly.length = d.n ∧ p.1.1.sPoly.length = d.n) := by
  unfold commitPermutedW
  refine Sim.failsW fun r hr => ?_
  obtain ⟨p, ctx'⟩ := r
  obtain ⟨h1, h2⟩ := commitPermuted_inv hr
  dsimp only at h1 h2 ⊢
  obtain ⟨h3, h4⟩ := lag_commit hs ht h1 (rng.permutedBlind ctx.length).1
  obtain ⟨h5, h6⟩ := lag_commit hs ht h2 (rng.permutedBlind ctx.length).2
  refine Sim.panicsW fun a ha => Sim.panicsW fun s hs' => ?_
  rw [h3] at ha
  rw [h5] at hs'
  cases ha
  cases hs'
  refine Sim.bind' hG (Sim.writePoint he _) (fun _ => by grows) ?_
  rintro _ _ t - ⟨rfl, -, rfl⟩
  refine Sim.bind' hG (Sim.writePoint he _) (fun _ => by grows) ?_
  rintro _ _ t - ⟨rfl, -, rfl⟩
  exact Sim.pure _ _ fun _ => ⟨rfl, hr, rfl, h4, h6⟩

theorem commitRowsW_sim (hG : Closed Good) {e : Enc F K A} (he : e.Valid)
    (hs : Setup threads pr d) (ht : threads ≠ 0) (rng : Rng F) (z : List F) (ctx : List (List F)) :
    Sim Good tr (commitRowsW threads e pr d rng z ctx) (R.readPoint e) fun p c t => t = tr ∧
      Verif.Plonk.commitRows threads d z ctx = some (p.1.1, p.2) ∧
      c = commitOf pr (p.1.1.poly, p.1.2) ∧ p.1.1.poly.length = d.n := by
  unfold commitRowsW
  refine Sim.panicsW fun r hr => ?_
  obtain ⟨p, ctx'⟩ := r
  have h1 := commitRows_inv hr
  dsimp only at h1 ⊢
  obtain ⟨h3, h4⟩ := lag_commit hs ht h1 (rng.productBlind ctx.length)
  refine Sim.panicsW fun a ha => ?_
  rw [h3] at ha
  cases ha
  refine (Sim.thenW (Sim.writePoint he _) _).mono ?_
  rintro _ _ t - - ⟨rfl, _, rfl, -, rfl⟩
  exact ⟨rfl, hr, rfl, h4⟩

theorem commitSets_length {Col : Type*} {omega delta beta gamma : F} {n bf : ℕ} {rand : ℕ → ℕ → F}
    {val : Col → List F} {i : ℕ} {l : List (List Col × List (List F))} {dw lastZ : F}
    {zs : List (List F)} (h : Verif.Permutation.commitSets threads omega delta beta gamma n bf rand
      val i l dw lastZ = some zs) : zs.length = l.length := by
  induction l generalizing i dw lastZ zs with
  | nil => cases h; rfl
  | cons a l ih =>
    obtain ⟨cols, perms⟩ := a
    unfold Verif.Permutation.commitSets at h
    obtain ⟨⟨z, dw', lastZ'⟩, -, h⟩ := Option.bind_eq_some_iff.1 h
    obtain ⟨zs', h1, rfl⟩ := Option.map_eq_some_iff.1 h
    simp [ih h1]

theorem chunks_length_congr {α β : Type*} {L : ℕ} (hL : L ≠ 0) (l : List α) (m : List β)
    (h : l.length = m.length) : (chunks L l).length = (chunks L m).length := by
  induction hn : l.length using Nat.strong_induction_on generalizing l m with
  | _ n ih =>
    by_cases hl : l = []
    · have hm : m = [] := by
        apply List.length_eq_zero_iff.1; rw [← h, hl]; rfl
      rw [hl, hm, chunks_nil, chunks_nil]; rfl
    · have hm : m ≠ [] := by
        intro hm; rw [hm] at h; exact hl (List.length_eq_zero_iff.1 h)
      have hpos := List.length_pos_iff.2 hl
      rw [chunks_cons hL hl, chunks_cons hL hm, List.length_cons, List.length_cons,
        ih (l.drop L).length (by simp only [List.length_drop]; omega) _ (m.drop L)
          (by simp only [List.length_drop]; omega) rfl]

theorem commit_length {Col : Type*} {omega delta beta gamma : F} {n bf D : ℕ} {rand : ℕ → ℕ → F}
    {val : Col → List F} {columns : List Col} {perms zs : List (List F)}
    (hlen : perms.length = columns.length)
    (h : Verif.Permutation.commit threads omega delta beta gamma n bf D rand val columns perms
      = some zs) : zs.length = (chunks (D - 2) columns).length := by
  unfold Verif.Permutation.commit at h
  split_ifs at h with hD
  rw [commitSets_length h, List.length_zip,
    chunks_length_congr (by omega) perms columns hlen, min_self]

theorem mapSW_const {α κ : Type} {m m' : List κ} (r : R F α) (h : m.length = m'.length) :
    (m.mapM fun _ => r) = m'.mapM fun _ => r := by
  induction m generalizing m' with
  | nil =>
    cases m' with
    | nil => rfl
    | cons => simp at h
  | cons a m ih =>
    cases m' with
    | nil => simp at h
    | cons b m' => rw [List.mapM_cons, List.mapM_cons, ih (m' := m') (by simpa using h)]

theorem commitPermutationW_sim (hG : Closed Good) {e : Enc F K A} (he : e.Valid)
    (hs : Setup threads pr d) (ht : threads ≠ 0) (cs : Cs F) (delta beta gamma : F) (rng : Rng F)
    (pk : Pk F) (hlen : pk.permutations.length = cs.permutation.length) (w : Circuit F)
    (ctx : List (List F)) :
    Sim Good tr (commitPermutationW threads e pr d cs delta beta gamma rng pk w ctx)
      ((chunks (cs.degree - 2) cs.permutation).mapM fun _ => R.readPoint e) fun p c t => t = tr ∧
      Verif.Plonk.commitPermutation threads d cs delta beta gamma rng.permutation pk w ctx
        = some (p.1.map Prod.fst, p.2) ∧
      c = p.1.map (fun q => commitOf pr (q.1.poly, q.2)) ∧ ∀ q ∈ p.1, q.1.poly.length = d.n := by
  unfold commitPermutationW
  refine Sim.panicsW fun zs hzs => ?_
  split_ifs at hzs with hall
  refine (Sim.mapSW hG zs _ (commit_length hlen hzs) (Verif.Plonk.commitRows threads d) _ _
    Prod.fst (fun q => commitOf pr (q.1.poly, q.2)) (fun q => q.1.poly.length = d.n)
    (fun _ _ => by unfold commitRowsW; grows)
    (fun q _ s => commitRowsW_sim hG he hs ht rng q.1 s) ctx).mono ?_
  rintro p c t - - ⟨rfl, h1, rfl, h2⟩
  refine ⟨rfl, ?_, rfl, h2⟩
  unfold Verif.Plonk.commitPermutation
  rw [if_pos hall, hzs, Option.bind_some]; exact h1

theorem commitProductW_sim (hG : Closed Good) {e : Enc F K A} (he : e.Valid)
    (hs : Setup threads pr d) (ht : threads ≠ 0) (bf : ℕ) (beta gamma : F) (rng : Rng F)
    (p : Permuted F × F × F) (ctx : List (List F)) :
    Sim Good tr (commitProductW threads e pr d bf beta gamma rng p ctx) (R.readPoint e)
      fun q c t => t = tr ∧
      Verif.Plonk.commitProduct threads d bf beta gamma rng.lookup p.1 ctx = some (q.1.1, q.2) ∧
      c = commitOf pr (q.1.1.poly, q.1.2) ∧ q.1.1.poly.length = d.n := by
  unfold commitProductW
  refine Sim.panicsW fun z hz => (commitRowsW_sim hG he hs ht rng z ctx).mono ?_
  rintro q c t - - ⟨rfl, h1, rfl, h2⟩
  refine ⟨rfl, ?_, rfl, h2⟩
  unfold Verif.Plonk.commitProduct
  rw [hz, Option.bind_some]; exact h1

/-- Reading the product of every lookup, beside what is known of it. -/
theorem mapM_pair {α β : Type} (r : R F α) (l : List β) :
    (l.mapM fun b => do let a ← r; pure (a, b)) = (do
      let as ← l.mapM fun _ => r
      pure (as.zip l)) := by
  induction l with
  | nil => rfl
  | cons b l ih =>
    rw [List.mapM_cons, List.mapM_cons, ih]
    simp only [bind_assoc, pure_bind, List.zip_cons_cons]

theorem mapM_pair₂ {α β : Type} (r : R F α) (l : List (List β)) :
    (l.mapM fun b => b.mapM fun b => do let a ← r; pure (a, b)) = (do
      let as ← l.mapM fun b => b.mapM fun _ => r
      pure ((as.zip l).map fun q => q.1.zip q.2)) := by
  induction l with
  | nil => rfl
  | cons b l ih =>
    rw [List.mapM_cons, List.mapM_cons, ih, mapM_pair]
    simp only [bind_assoc, pure_bind, List.zip_cons_cons, List.map_cons]

theorem mapS_map {S : Type*} {α α' β : Type*} (f : α → S → Option (β × S)) (g : α' → α)
    (l : List α') (s : S) : mapS f (l.map g) s = mapS (fun a => f (g a)) l s := by
  induction l generalizing s with
  | nil => rfl
  | cons a l ih =>
    rw [List.map_cons]
    unfold mapS
    simp only [ih]

/-- What is opened of a lookup. -/
def lookupOpens (q : (Permuted F × F × F) × (Product F × F)) :
    (List F × F) × (List F × F) × (List F × F) :=
  ((q.2.1.poly, q.2.2), (q.1.1.aPoly, q.1.2.1), (q.1.1.sPoly, q.1.2.2))

theorem commitPermutedW_grows [LinearOrder F] (e : Enc F K A) (bf : ℕ) (rng : Rng F) (P : Prep F)
    (theta : F) (v c : Leaves) (l : Lookup F) (ctx : List (List F)) :
    Grows (commitPermutedW threads e pr d bf theta rng P v c l ctx) := by
  unfold commitPermutedW; grows

theorem commitPermutationW_grows (e : Enc F K A) (cs : Cs F) (delta : F) (rng : Rng F)
    (pk : Pk F) (beta gamma : F) (w : Circuit F) (ctx : List (List F)) :
    Grows (commitPermutationW threads e pr d cs delta beta gamma rng pk w ctx) := by
  unfold commitPermutationW commitRowsW; grows

theorem commitProductW_grows (e : Enc F K A) (bf : ℕ) (rng : Rng F) (beta gamma : F)
    (p : Permuted F × F × F) (ctx : List (List F)) :
    Grows (commitProductW threads e pr d bf beta gamma rng p ctx) := by
  unfold commitProductW commitRowsW; grows

/-- Side conditions `Grows` of the products stage. -/
macro "grows₂" : tactic => `(tactic| repeat' (first
  | exact commitPermutedW_grows _ _ _ _ _ _ _ _ _
  | exact commitPermutationW_grows _ _ _ _ _ _ _ _ _
  | exact commitProductW_grows _ _ _ _ _ _ _
  | exact Grows.pure _
  | exact Grows.squeeze _
  | apply Grows.mapSW
  | apply Grows.bind
  | intro _))

theorem proverProducts_grows [LinearOrder F] (e : Enc F K A) (cs : Cs F) (delta : F)
    (rng : Rng F) (pk : Pk F) (ws : List (Circuit F)) (P : Prep F) :
    Grows (proverProducts threads e pr d cs delta rng pk ws P) := by
  unfold proverProducts
  grows₂

/-- The results of `proverProducts`, by the functions of `Verif.Plonk`. -/
structure ProductsOk [LinearOrder F] (threads : ℕ) (d : Domain F) (cs : Cs F) (delta : F)
    (rng : Rng F) (pk : Pk F) (ws : List (Circuit F)) (P : Prep F) (theta beta gamma : F)
    (permuted : List (List (Permuted F × F × F))) (products : List (List (Product F × F)))
    (lookupProducts : List (List (Product F × F))) (ctx : List (List F)) : Prop where
  run : ∃ ctx₁ ctx₂,
    mapS (fun (q : (List ℕ × List ℕ) × List ℕ × List ℕ) =>
        mapS (Verif.Plonk.commitPermuted threads d cs.blindingFactors theta rng.permuted P.vctx P.vf
          ⟨q.2.1, q.1.1⟩ P.cf ⟨q.2.2, q.1.2⟩) cs.lookups)
      ((P.vi.zip P.ci).zip (P.va.zip P.ca)) P.ctx
        = some (permuted.map (List.map Prod.fst), ctx₁) ∧
    mapS (Verif.Plonk.commitPermutation threads d cs delta beta gamma rng.permutation pk) ws ctx₁
        = some (products.map (List.map Prod.fst), ctx₂) ∧
    mapS (fun ps => mapS (Verif.Plonk.commitProduct threads d cs.blindingFactors beta gamma
        rng.lookup) ps) (permuted.map (List.map Prod.fst)) ctx₂
        = some (lookupProducts.map (List.map Prod.fst), ctx)
  permuted_len : ∀ ps ∈ permuted, ∀ p ∈ ps, p.1.aPoly.length = d.n ∧ p.1.sPoly.length = d.n
  products_len : ∀ ps ∈ products, ∀ p ∈ ps, p.1.poly.length = d.n
  lookup_len : ∀ ps ∈ lookupProducts, ∀ p ∈ ps, p.1.poly.length = d.n

set_option maxHeartbeats 1000000 in
theorem products_sim [LinearOrder F] (hG : Closed Good) {e : Enc F K A} (he : e.Valid)
    (hs : Setup threads pr d) (ht : threads ≠ 0) (cs : Cs F) (delta : F) (rng : Rng F)
    (pk : Pk F) (hlen : pk.permutations.length = cs.permutation.length) (ws : List (Circuit F))
    (P : Prep F) (hP : ((P.vi.zip P.ci).zip (P.va.zip P.ca)).length = ws.length) :
    Sim Good tr (proverProducts threads e pr d cs delta rng pk ws P)
      (verifierProducts e cs ws.length) fun p q t =>
        t = p.2.2.1 :: p.2.1 :: p.1 :: tr ∧ Good t ∧
        q.1 = p.1 ∧ q.2.1 = p.2.1 ∧ q.2.2.1 = p.2.2.1 ∧
        ProductsOk threads d cs delta rng pk ws P p.1 p.2.1 p.2.2.1 p.2.2.2.1 p.2.2.2.2.1
          p.2.2.2.2.2.1 p.2.2.2.2.2.2 ∧
        q.2.2.2.1 = p.2.2.2.2.1.map (fun ps => ps.map fun r => commitOf pr (r.1.poly, r.2)) ∧
        q.2.2.2.2 = (p.2.2.2.1.zip p.2.2.2.2.2.1).map (fun ps => (ps.1.zip ps.2).map fun r =>
          (commitOf pr (lookupOpens r).1, commitOf pr (lookupOpens r).2.1,
            commitOf pr (lookupOpens r).2.2)) := by
  unfold proverProducts verifierProducts
  refine Sim.bind' hG (Sim.squeeze he) (fun _ => by grows₂) ?_
  rintro _ theta _ - ⟨rfl, rfl, -⟩
  refine Sim.bind' hG (Sim.mapSW hG _ (List.range ws.length) (by rw [hP, List.length_range])
    (fun (q : (List ℕ × List ℕ) × List ℕ × List ℕ) =>
      mapS (Verif.Plonk.commitPermuted threads d cs.blindingFactors theta rng.permuted P.vctx P.vf
          ⟨q.2.1, q.1.1⟩ P.cf ⟨q.2.2, q.1.2⟩) cs.lookups)
    _ _ (List.map Prod.fst) (List.map (permutedComms pr))
    (fun ps => ∀ p ∈ ps, p.1.aPoly.length = d.n ∧ p.1.sPoly.length = d.n)
    (fun _ _ => by grows₂)
    (fun q _ s => Sim.mapSW hG cs.lookups cs.lookups rfl _ _ _ Prod.fst (permutedComms pr)
      (fun p => p.1.aPoly.length = d.n ∧ p.1.sPoly.length = d.n) (fun _ _ => by grows₂)
      (fun q _ s => commitPermutedW_sim hG he hs ht cs.blindingFactors theta rng P _ _ q.1 s) s)
    P.ctx) (fun _ => by grows₂) ?_
  rintro ⟨permuted, ctx₁⟩ _ _ - ⟨rfl, h1, rfl, h2⟩
  refine Sim.bind' hG (Sim.squeeze he) (fun _ => by grows₂) ?_
  rintro _ beta _ - ⟨rfl, rfl, -⟩
  refine Sim.bind' hG (Sim.squeeze he) (fun _ => by grows₂) ?_
  rintro _ gamma _ - ⟨rfl, rfl, hgood⟩
  refine Sim.bind' hG (Sim.mapSW hG ws (List.range ws.length) (by rw [List.length_range])
    _ _ _ (List.map Prod.fst) (List.map fun r => commitOf pr (r.1.poly, r.2))
    (fun ps => ∀ p ∈ ps, p.1.poly.length = d.n) (fun _ _ => by grows₂)
    (fun q _ s => commitPermutationW_sim hG he hs ht cs delta beta gamma rng pk hlen q.1 s) ctx₁)
    (fun _ => by grows₂) ?_
  rintro ⟨products, ctx₂⟩ _ _ - ⟨rfl, h3, rfl, h4⟩
  dsimp only
  rw [mapM_pair₂, bind_assoc]
  refine Sim.bind' hG (Sim.mapSW hG permuted (permuted.map (List.map (permutedComms pr)))
    (by simp) (fun ps => mapS (fun p => Verif.Plonk.commitProduct threads d cs.blindingFactors beta
      gamma rng.lookup p.1) ps)
    _ _ (List.map Prod.fst) (List.map fun r => commitOf pr (r.1.poly, r.2))
    (fun ps => ∀ p ∈ ps, p.1.poly.length = d.n) (fun _ _ => by grows₂)
    ?_ ctx₂) (fun r => Grows.pure _) ?_
  · intro q hq s
    have hq2 : q.2 = List.map (permutedComms pr) q.1 := by
      rw [List.zip_map_right] at hq
      obtain ⟨r, hr, rfl⟩ := List.mem_map.1 hq
      rw [Prod.map, mem_zip_self hr]; rfl
    obtain ⟨ps, k⟩ := q
    dsimp only at hq2 ⊢
    subst hq2
    refine Sim.mapSW hG ps _ (by simp) (fun p => Verif.Plonk.commitProduct threads d
      cs.blindingFactors beta gamma rng.lookup p.1)
      (commitProductW threads e pr d cs.blindingFactors beta gamma rng) (fun _ => R.readPoint e)
      Prod.fst
      (fun r => commitOf pr (r.1.poly, r.2)) (fun p => p.1.poly.length = d.n)
      (fun _ _ => by grows₂) ?_ s
    exact fun q _ s => commitProductW_sim hG he hs ht cs.blindingFactors beta gamma rng q.1 s
  rintro ⟨lookupProducts, ctx⟩ _ _ - ⟨rfl, h5, rfl, h6⟩
  refine Sim.pure _ _ fun hg => ⟨rfl, hg, rfl, rfl, rfl, ⟨⟨ctx₁, ctx₂, h1, h3, ?_⟩, h2, h4, h6⟩,
    rfl, ?_⟩
  · rw [mapS_map]
    have : (fun a : List (Permuted F × F × F) => mapS (Verif.Plonk.commitProduct threads d
        cs.blindingFactors beta gamma rng.lookup) (List.map Prod.fst a)) = fun ps =>
        mapS (fun p => Verif.Plonk.commitProduct threads d cs.blindingFactors beta gamma rng.lookup
          p.1) ps := by
      funext a s; exact mapS_map _ _ _ _
    rw [this]
    exact h5
  · dsimp only
    rw [List.zip_map, List.map_map, ← List.zip_swap permuted lookupProducts, List.map_map]
    refine List.map_congr_left fun ps _ => ?_
    simp only [Function.comp_apply, Prod.map, Prod.swap]
    rw [List.zip_map, ← List.zip_swap ps.1 ps.2, List.map_map]
    rfl

theorem proverQuotient_grows [LinearOrder F] (e : Enc F K A) (cs : Cs F) (delta : F) (rng : Rng F)
    (P : Prep F) (theta beta gamma : F) (permuted : List (List (Permuted F × F × F)))
    (products lookupProducts : List (List (Product F × F))) (ctx : List (List F)) :
    Grows (proverQuotient threads e pr d cs delta rng P theta beta gamma permuted products
      lookupProducts ctx) := by
  unfold proverQuotient; grows

theorem construct_lengths (hd : d.Valid) (ht : threads ≠ 0) {polys : List (List F)}
    {exprs : List (Verif.Evaluator.Ast F)} {y : F} {pieces : List (List F)}
    (h : Verif.Vanishing.construct threads d polys exprs y = some pieces) :
    pieces.length = d.quotientPolyDegree ∧ ∀ p ∈ pieces, p.length = d.n := by
  unfold Verif.Vanishing.construct at h
  obtain ⟨_, -, h⟩ := Option.bind_eq_some_iff.1 h
  obtain ⟨a, -, h⟩ := Option.bind_eq_some_iff.1 h
  obtain ⟨out, h1, h⟩ := Option.bind_eq_some_iff.1 h
  split_ifs at h with hn
  cases h
  obtain ⟨full, h2, -, rfl⟩ := (Verif.Domain.extendedToCoeff_spec hd threads ht a).2 out h1
  obtain ⟨h3, h4, -⟩ := Verif.Vanishing.chunksExact_length d.n hn d.quotientPolyDegree
    (full.take (d.n * d.quotientPolyDegree)) (by
      have := hd.ext_enough
      rw [List.length_take, h2]; exact min_eq_left this)
  exact ⟨h3, h4⟩

/-- The random polynomial of the vanishing argument. -/
def randomPoly (d : Domain F) (rng : Rng F) : List F := (List.range d.n).map rng.randomPoly

theorem quotient_sim [LinearOrder F] (hG : Closed Good) {e : Enc F K A} (he : e.Valid)
    (hs : Setup threads pr d) (ht : threads ≠ 0) (cs : Cs F) (delta : F) (rng : Rng F)
    (P : Prep F) (theta beta gamma : F) (permuted : List (List (Permuted F × F × F)))
    (products lookupProducts : List (List (Product F × F))) (ctx : List (List F)) :
    Sim Good tr (proverQuotient threads e pr d cs delta rng P theta beta gamma permuted products
      lookupProducts ctx) (verifierQuotient e d) fun p q t =>
        t = p.1 :: q.2.1 :: tr ∧ Good t ∧ q.2.2.2 = p.1 ∧ p.2.1 = randomPoly d rng ∧
        q.1 = commitOf pr (randomPoly d rng, rng.randomBlind) ∧
        (∃ exprs, (((P.ca.zip P.ci).zip (products.zip (permuted.zip lookupProducts))).mapM
          fun (q' : (List ℕ × List ℕ) × List (Product F × F) × List (Permuted F × F × F) ×
              List (Product F × F)) =>
            Verif.Plonk.proverExpressions cs delta ⟨theta, beta, gamma, q.2.1⟩ P.cf
              ⟨q'.1.1, q'.1.2⟩ P.perm P.l0 P.lBlind P.lLast (q'.2.1.map Prod.fst)
              ((q'.2.2.1.map Prod.fst).zip (q'.2.2.2.map Prod.fst))) = some exprs ∧
          Verif.Vanishing.construct threads d ctx exprs.flatten q.2.1 = some p.2.2) ∧
        p.2.2.length = d.quotientPolyDegree ∧ (∀ r ∈ p.2.2, r.length = d.n) ∧
        q.2.2.1 = p.2.2.mapIdx fun i r => commitOf pr (r, rng.hBlind i) := by
  unfold proverQuotient verifierQuotient
  have hr : (randomPoly d rng).length = d.n := by simp [randomPoly]
  refine Sim.panicsW fun c hc => ?_
  have hc' : pr.commit (randomPoly d rng) rng.randomBlind = some c := hc
  rw [hs.commit _ _ hr] at hc'
  cases hc'
  refine Sim.bind' hG (Sim.writePoint he _) (fun _ => by grows) ?_
  rintro _ _ t - ⟨rfl, -, rfl⟩
  refine Sim.bind' hG (Sim.squeeze he) (fun _ => by grows) ?_
  rintro _ y _ - ⟨rfl, rfl, -⟩
  refine Sim.panicsW fun exprs hexprs => Sim.panicsW fun pieces hpieces => ?_
  obtain ⟨hl, hn⟩ := construct_lengths hs.domain ht hpieces
  refine Sim.panicsW fun cms hcms => ?_
  rw [mapM_some (f := fun q : List F × F => pr.commit q.1 q.2) _ (commitOf pr) ?_] at hcms
  · cases hcms
    refine Sim.bind' hG (readNPoints_sim hG he _ _ (by simp [hl])) (fun _ => by grows) ?_
    rintro _ _ t - ⟨rfl, rfl⟩
    refine Sim.bind' hG (Sim.squeeze he) (fun _ => by grows) ?_
    rintro _ x _ - ⟨rfl, rfl, -⟩
    refine Sim.pure _ _ fun hg => ⟨rfl, hg, rfl, rfl, rfl, ⟨exprs, hexprs, hpieces⟩, hl, hn, ?_⟩
    refine List.ext_getElem (by simp) fun i h1 h2 => ?_
    simp
  · intro q hq
    obtain ⟨i, hi, rfl⟩ := List.mem_mapIdx.1 hq
    exact hs.commit _ _ (hn _ (List.getElem_mem _))

end Verif.Protocol
