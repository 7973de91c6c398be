import Verif.Protocol.Combine
import Verif.Commitment.Props
import Verif.Toy.Props

/-!
# Honest proofs verify (C49) and instance checks (C48)
-/

namespace Verif.Protocol

open Verif.Cs (Cs Column Lookup)
open Verif.Domain (Domain Consts)
open Verif.PolyArith (evalPolynomial)
open Verif.Plonk (Pk Circuit Permuted Product Challenges Sat Nonzero Ready permsOf)
open Verif.Msm Verif.Transcript
open Verif.Multiopen (Query Commitment commitOf)
open Verif.Ipa (ParamsOk GuardOk)

variable {F K A : Type} [Field F] [AddCommGroup A] [Module F A] [Field K]

/-! ## Parameters and domain -/

theorem lagrangeToCoeff_threads {d : Domain F} (hd : d.Valid) {t t' : ℕ} (ht : t ≠ 0) (ht' : t' ≠ 0)
    (a : List F) : d.lagrangeToCoeff t a = d.lagrangeToCoeff t' a := by
  obtain ⟨h1, h2⟩ := Verif.Domain.lagrangeToCoeff_spec hd t ht a
  obtain ⟨h3, h4⟩ := Verif.Domain.lagrangeToCoeff_spec hd t' ht' a
  by_cases h : a.length = d.n
  · rcases h5 : d.lagrangeToCoeff t a with _ | p
    · exact absurd h (h1.2 h5)
    rcases h6 : d.lagrangeToCoeff t' a with _ | q
    · exact absurd h (h3.2 h6)
    rw [(h4 q h6).2.2 p (h2 p h5).1 (h2 p h5).2.1]
  · rw [h1.1 h, h3.1 h]

/-- Parameters and a domain made for the same `k` fit together, whatever the numbers of threads. -/
theorem setup_of_new [DecidableEq F] {threads threads' : ℕ} (ht : threads ≠ 0) (ht' : threads' ≠ 0)
    {c : Consts F} (hc : c.Valid) {hasher : Bytes → A} {j k : ℕ} {d : Domain F}
    (hd : Verif.Domain.new c j k = some d) {pr : Params A}
    (hpr : Commitment.Params.new threads' c hasher k = some pr) : Setup threads pr d ∧ pr.k = k := by
  obtain ⟨h1, h2⟩ := Verif.Domain.new_spec c hc j k
  obtain ⟨hv, hk, -⟩ := h1 d hd
  have hS := (h2.1 ⟨d, hd⟩).2.1
  by_cases hk32 : k < 32
  swap
  · unfold Commitment.Params.new at hpr; rw [if_pos hk32] at hpr; cases hpr
  obtain ⟨pr', hp1, hp2, hp3⟩ := Verif.Commitment.new_sized threads' ht' c hc hasher k hk32 hS
  cases hp1.symm.trans hpr
  have hn : pr.n = d.n := by rw [hp2.n_eq, hp3, hv.n_eq, hk]
  have hcm : ∀ (p : List F) (b : F), p.length = d.n → pr.commit p b = some (commitOf pr (p, b)) := by
    intro p b hp
    unfold Params.commit
    rw [Verif.Commitment.multiexp_append, if_pos (by rw [hp, hp2.g_len, hn])]
    rfl
  refine ⟨⟨⟨hp2.n_eq, hp2.g_len⟩, hv, hn, hcm, ?_⟩, hp3⟩
  intro v b hvl
  obtain ⟨p, q1, q2, -⟩ := Verif.Plonk.toCoeffs_spec hv threads ht v hvl
  rw [Verif.Commitment.commitLagrange_eq threads' ht' c hc hasher j k d hd pr hpr v b,
    lagrangeToCoeff_threads hv ht' ht, q1, Option.bind_some, hcm p b q2]
  unfold coeffs
  rw [q1]; rfl

/-! ## Honest proofs verify -/

/-- Specification: the challenges squeezed, in their order `θ, β, γ, y, x, x₁, x₂, x₃, …`, avoid
the exceptional values.  No denominator of the permutation and lookup arguments vanishes, `x` is
not in the domain, and `x₃` is no rotation of `x` (a rotation of `x` has the same `n`-th power). -/
structure Lucky (d : Domain F) (cs : Cs F) (delta : F) (fv : List (List F)) (ws : List (Circuit F))
    (c : List F) : Prop where
  nonzero : ∀ theta beta gamma y rest, c = theta :: beta :: gamma :: y :: rest →
    ∀ w ∈ ws, Nonzero d cs delta ⟨theta, beta, gamma, y⟩ fv w
  x : ∀ theta beta gamma y x rest, c = theta :: beta :: gamma :: y :: x :: rest → x ^ d.n ≠ 1
  x₃ : ∀ theta beta gamma y x x₁ x₂ x₃ rest,
    c = theta :: beta :: gamma :: y :: x :: x₁ :: x₂ :: x₃ :: rest → x₃ ^ d.n ≠ x ^ d.n

theorem suffix_reverse {l t : List F} (h : l <:+ t) : ∃ rest, t.reverse = l.reverse ++ rest := by
  obtain ⟨s, rfl⟩ := h
  exact ⟨s.reverse, by rw [List.reverse_append]⟩

theorem blindColumn_length {n bf : ℕ} (rng : ℕ → F) {v : List F} (hv : v.length = n) :
    (blindColumn n bf rng v).length = n := by
  unfold blindColumn
  rw [List.length_append, List.length_take, List.length_map, List.length_range, hv]
  omega

theorem prover_grows [LinearOrder F] [LinearOrder K] (threads : ℕ) (e : Enc F K A) (pr : Params A) (d : Domain F)
    (cs : Cs F) (rng : Rng F) (pk : Pk F) (os : List (Opens (List F × F))) (x : F)
    (random : List F) (pieces : List (List F)) :
    Grows (proverOpen threads e pr d cs rng pk os x random pieces) := by
  unfold proverOpen
  refine (Grows.mapM _ _ fun _ => evalQueries_grows _ _ _ _).bind fun _ =>
    (Grows.mapM _ _ fun _ => evalQueries_grows _ _ _ _).bind fun _ =>
    (evalQueries_grows _ _ _ _).bind fun _ => (Grows.panics _).bind fun _ =>
    (Grows.writeScalar _ _).bind fun _ =>
    (Grows.mapM _ _ fun _ => Grows.writeScalar _ _).bind fun _ =>
    (Grows.mapM _ _ fun _ => evalPermutation_grows _ _ _ _).bind fun _ =>
    (Grows.mapM _ _ fun _ => Grows.mapM _ _ fun _ => ?_).bind fun _ =>
    Grows.mapErr _ (Multiopen.createProof_grows _ _ _ _ _ _ _)
  unfold evalLookup
  grows₃

theorem holds_zero [LinearOrder K] {e : Enc F K A} {pr : Params A} : Holds e.toCoords pr (MSM.new : MSM F K) 0 := by
  exact Verif.Msm.holds_new _ _

theorem bind_of_ok {σ α β : Type} {w : StateT σ (Except Err) α} {f : α → StateT σ (Except Err) β}
    {s s' : σ} {a : α} (h : w s = .ok (a, s')) : (w >>= f) s = f a s' := by
  change (w s).bind _ = _
  rw [h]; rfl

section Main

variable [LinearOrder F] [LinearOrder K] {threads : ℕ} {pr : Params A} {d : Domain F}

set_option maxHeartbeats 1000000 in
theorem guard_sim {e : Enc F K A} (he : e.Valid) (hs : Setup threads pr d) (ht : threads ≠ 0)
    (cs : Cs F) (hdeg : cs.degree ≤ d.quotientPolyDegree + 1) (hr : Ready cs d.n)
    (hbf : cs.blindingFactors + 1 < d.n) (hn : d.n < 2 ^ 32)
    (hcols : cs.lookups ≠ [] → cs.numFixed + cs.numAdvice + cs.numInstance ≠ 0) (delta repr : F)
    (fv : List (List F)) (hfl : fv.length = cs.numFixed) (hf : ∀ v ∈ fv, v.length = d.n)
    (calls : List (Verif.Copy.Call Column))
    (hrows : ∀ c ∈ calls, c.leftRow < d.n - (cs.blindingFactors + 1) ∧
      c.rightRow < d.n - (cs.blindingFactors + 1))
    (pk : Pk F)
    (hpk : Verif.Plonk.keygenPk threads d cs.blindingFactors fv (permsOf d cs delta calls) = some pk)
    (vk : Vk F A) (hvk : keygenVk pr repr fv (permsOf d cs delta calls) = some vk)
    (rng : Rng F) (circuits instances : List (List (List F)))
    (hadv : ∀ c ∈ circuits, c.length = cs.numAdvice ∧ ∀ v ∈ c, v.length = d.n)
    (hsat : ∀ w ∈ witness d.n cs.blindingFactors rng circuits instances, Sat d cs fv calls w)
    (T : List F) (hlucky : Lucky d cs delta fv
      (witness d.n cs.blindingFactors rng circuits instances) T.reverse) :
    Sim (fun t => t <:+ T) [] (createProof threads e pr d cs delta repr rng pk circuits instances)
      (verifyGuard e pr d cs delta vk instances MSM.new) fun _ gd _ => GuardOk e pr gd := by
  have hG : Closed fun t : List F => t <:+ T := fun t t' h1 h2 => h1.trans h2
  obtain ⟨hpl, hpn⟩ := Verif.Permutation.permPolys_length d.omega delta
    (Verif.Permutation.keyMapping cs.permutation d.n calls)
  have hvr : vk.repr = repr := by
    unfold keygenVk at hvk
    obtain ⟨_, -, hvk⟩ := Option.bind_eq_some_iff.1 hvk
    obtain ⟨_, -, rfl⟩ := Option.map_eq_some_iff.1 hvk
    rfl
  have hkey : vk.fixedCommitments = pk.fixedPolys.map (fun p => commitOf pr (p, (1 : F))) ∧
      vk.permCommitments = pk.permPolys.map (fun p => commitOf pr (p, (1 : F))) ∧
      (∀ p ∈ pk.fixedPolys, p.length = d.n) ∧ (∀ p ∈ pk.permPolys, p.length = d.n) ∧
      pk.permutations = permsOf d cs delta calls := by
    unfold keygenVk at hvk
    rw [mapM_some (permsOf d cs delta calls) (fun v => commitOf pr (coeffs threads d v, (1 : F)))
      (fun v hv => hs.lagrange v 1 (hpn v hv)), Option.bind_some,
      mapM_some _ (fun v => commitOf pr (coeffs threads d v, (1 : F)))
      (fun v hv => hs.lagrange v 1 (hf v hv))] at hvk
    cases hvk
    unfold Verif.Plonk.keygenPk at hpk
    rw [toCoeffs_eq hs ht fv hf, Option.bind_some] at hpk
    obtain ⟨_, -, hpk⟩ := Option.bind_eq_some_iff.1 hpk
    rw [toCoeffs_eq hs ht (permsOf d cs delta calls) hpn, Option.bind_some] at hpk
    obtain ⟨_, -, hpk⟩ := Option.bind_eq_some_iff.1 hpk
    obtain ⟨_, -, hpk⟩ := Option.bind_eq_some_iff.1 hpk
    obtain ⟨_, -, hpk⟩ := Option.bind_eq_some_iff.1 hpk
    obtain ⟨_, -, rfl⟩ := Option.map_eq_some_iff.1 hpk
    refine ⟨by simp [Function.comp_def], by simp [Function.comp_def], ?_, ?_, rfl⟩
    · intro p hp
      obtain ⟨v, hv, rfl⟩ := List.mem_map.1 hp
      exact (coeffs_spec hs ht v (hf v hv)).2
    · intro p hp
      obtain ⟨v, hv, rfl⟩ := List.mem_map.1 hp
      exact (coeffs_spec hs ht v (hpn v hv)).2
  obtain ⟨hvf, hvp, hfl', hpl', hpp⟩ := hkey
  have hws : ∀ w ∈ witness d.n cs.blindingFactors rng circuits instances,
      (∀ v ∈ w.inst, v.length = d.n) ∧ ∀ v ∈ w.advice, v.length = d.n := fun w hw =>
    ⟨(hsat w hw).inst, (hsat w hw).advice⟩
  unfold createProof verifyGuard verifierRead
  simp only [bind_assoc, pure_bind]
  rw [hvr]
  refine Sim.bind' hG (columns_sim hG he hs cs hbf.le repr rng circuits instances ?_) (fun _ => by
    refine Grows.bind (Grows.panics _) fun _ => Grows.bind (proverProducts_grows _ _ _ _ _ _ _) fun _ =>
      Grows.bind (proverQuotient_grows _ _ _ _ _ _ _ _ _ _ _ _) fun _ => prover_grows _ _ _ _ _ _ _ _ _ _ _) ?_
  · intro q hq
    have hc := hadv q.1 (List.fst_mem_of_mem_zipIdx hq)
    refine ⟨by simp [blindCircuit, hc.1], fun v hv => ?_⟩
    obtain ⟨i, hi, rfl⟩ := List.mem_mapIdx.1 hv
    exact blindColumn_length _ (hc.2 _ (List.getElem_mem _))
  rintro ws ⟨inst, advice⟩ t - ⟨rfl, rfl, hcl, hfits, hinst, hadvice⟩
  dsimp only at hinst hadvice ⊢
  have hwl : (witness d.n cs.blindingFactors rng circuits instances).length = inst.length := by
    simp [witness, hinst, hcl]
  refine Sim.panicsW fun P hP => ?_
  obtain ⟨p1, p2, p3, p4, p5⟩ := prepare_spec hs ht hP (fun w hw => (hws w hw).1)
    (fun w hw => (hws w hw).2)
  rw [← hwl]
  refine Sim.bind' hG (products_sim hG he hs ht cs delta rng pk (by rw [hpp]; exact hpl) _ P p3) (fun _ => by
    refine Grows.bind (proverQuotient_grows _ _ _ _ _ _ _ _ _ _ _ _) fun _ => prover_grows _ _ _ _ _ _ _ _ _ _ _) ?_
  rintro ⟨_, _, _, permuted, products, lookupProducts, ctx⟩
    ⟨theta, beta, gamma, cprod, clook⟩ t - ⟨rfl, hg1, rfl, rfl, rfl, hok, hcprod, hclook⟩
  dsimp only at hok hcprod hclook ⊢
  refine Sim.bind' hG (quotient_sim hG he hs ht cs delta rng P theta beta gamma permuted products
    lookupProducts ctx) (fun _ => prover_grows _ _ _ _ _ _ _ _ _ _ _) ?_
  rintro ⟨_, random, pieces⟩ ⟨crandom, y, ch, x⟩ t - ⟨rfl, hg2, rfl, rfl, hcr, ⟨exprs, hex, hcon⟩, hpl1, hpl2, hch⟩
  dsimp only at hcr hex hcon hpl1 hpl2 hch ⊢
  have hproof := createProof_combine (threads := threads) (d := d) hP hok hex hcon
  obtain ⟨rest, hrest⟩ := suffix_reverse hg2
  simp only [List.reverse_cons, List.reverse_nil, List.nil_append, List.cons_append] at hrest
  obtain ⟨pk', proofs, pieces', k1, k2, -, -, k3⟩ := Verif.Plonk.verifier_checks_prover hs.domain
    threads ht cs hdeg hr hbf hn hcols delta ⟨theta, beta, gamma, y⟩ rng.permuted rng.permutation
    rng.lookup fv hfl hf calls hrows _ hsat (hlucky.nonzero theta beta gamma y _ hrest)
  cases hpk.symm.trans k1
  cases hproof.symm.trans k2
  have hchk := k3 x (hlucky.x theta beta gamma y x _ hrest)
  rw [opens_proofs (rng := rng) p1 p2] at hchk
  refine open_sim hG he hs ht cs delta rng pk vk (opensList P rng _ products permuted lookupProducts)
    x _ pieces _ hvf hvp hfl' hpl' ?_ ?_ hpl2 rfl ?_ hcr hch ?_ ?_ MSM.new holds_zero
  · exact opens_sized hs ht p1 p2 (fun w hw => (hws w hw).1) (fun w hw => (hws w hw).2)
      hok.permuted_len hok.products_len hok.lookup_len
  · simp [randomPoly]
  · rw [hinst, hadvice, hcprod, hclook]
    exact opens_comms rfl hcl p1 p2
  · exact hchk
  · intro x₁ x₂ x₃ hg3
    obtain ⟨rest, hrest⟩ := suffix_reverse hg3
    simp only [List.reverse_cons, List.reverse_nil, List.nil_append, List.cons_append] at hrest
    exact hlucky.x₃ theta beta gamma y x x₁ x₂ x₃ _ hrest

/-- **C49**: an honest proof verifies.  The verifying and proving keys come from the same circuit,
the columns of every circuit together with its instance satisfy it, and `create_proof` returns
a proof.  Unless one of the challenges is exceptional, `verify_proof` accepts the bytes written,
and reads exactly these.  The randomness is arbitrary. -/
theorem honest_proof_verifies [DecidableEq A] {threads' j k : ℕ} {c : Consts F} (hc : c.Valid)
    {hasher : Bytes → A} (ht : threads ≠ 0) (ht' : threads' ≠ 0)
    (hd : Verif.Domain.new c j k = some d) (hpr : Commitment.Params.new threads' c hasher k = some pr)
    {e : Enc F K A} (he : e.Valid) (cs : Cs F) (hdeg : cs.degree ≤ j) (hr : Ready cs d.n)
    (hbf : cs.blindingFactors + 1 < d.n)
    (hcols : cs.lookups ≠ [] → cs.numFixed + cs.numAdvice + cs.numInstance ≠ 0) (delta repr : F)
    (fv : List (List F)) (hfl : fv.length = cs.numFixed) (hf : ∀ v ∈ fv, v.length = d.n)
    (calls : List (Verif.Copy.Call Column))
    (hrows : ∀ c ∈ calls, c.leftRow < d.n - (cs.blindingFactors + 1) ∧
      c.rightRow < d.n - (cs.blindingFactors + 1))
    (pk : Pk F)
    (hpk : Verif.Plonk.keygenPk threads d cs.blindingFactors fv (permsOf d cs delta calls) = some pk)
    (vk : Vk F A) (hvk : keygenVk pr repr fv (permsOf d cs delta calls) = some vk)
    (rng : Rng F) (circuits instances : List (List (List F)))
    (hadv : ∀ c ∈ circuits, c.length = cs.numAdvice ∧ ∀ v ∈ c, v.length = d.n)
    (hsat : ∀ w ∈ witness d.n cs.blindingFactors rng circuits instances, Sat d cs fv calls w)
    (st' : WState F)
    (hprove : createProof threads e pr d cs delta repr rng pk circuits instances W.init
      = .ok ((), st'))
    (hlucky : Lucky d cs delta fv (witness d.n cs.blindingFactors rng circuits instances)
      st'.trace.reverse) (rest : Bytes) :
    verifySingle e pr d cs delta vk instances (R.init (st'.out ++ rest))
      = .ok ((), ⟨st'.absorbed, rest, st'.trace⟩) := by
  obtain ⟨hs, hk⟩ := setup_of_new ht ht' hc hd hpr
  obtain ⟨h1, -⟩ := Verif.Domain.new_spec c hc j k
  obtain ⟨hv, hdk, hq, -⟩ := h1 d hd
  have hk32 : k < 32 := by
    by_contra hk32
    unfold Commitment.Params.new at hpr; rw [if_pos hk32] at hpr; cases hpr
  have hk0 : pr.k ≠ 0 := by
    rintro h0
    rw [hv.n_eq, hdk, ← hk, h0] at hbf
    simp at hbf
  have hn : d.n < 2 ^ 32 := by
    rw [hv.n_eq, hdk]; exact Nat.pow_lt_pow_right (by decide) hk32
  have hsim := guard_sim he hs ht cs (by omega) hr hbf hn hcols delta repr fv hfl hf calls hrows pk
    hpk vk hvk rng circuits instances hadv hsat st'.trace hlucky
  obtain ⟨proof, gd, g1, g2, g3, v, g4, g5⟩ := hsim.run _ _ _ _ hprove (List.suffix_refl _)
  have g1 : st'.out = proof := g1
  subst g1
  rcases Verif.Ipa.useChallenges_spec hs.params gd g3 g4 with ⟨h, -⟩ | ⟨m, h6, h7⟩
  · exact absurd h hk0
  · rw [g5] at h7
    have h8 := eval_spec he.coords_valid hs.params.ok h7
    unfold verifySingle
    have g2 := g2 rest
    have h8 : m.eval e.toCoords pr = some true := by rw [h8]; simp
    rw [R.init, bind_of_ok g2, h6]
    change (do let ok ← panics (m.eval e.toCoords pr); check (ok = true) .constraintSystemFailure)
      _ = _
    rw [h8]
    rfl

end Main

/-! ## A concrete proof -/

section Example

open Verif.Toy Verif.Plonk

def exHash (bs : Bytes) : G := uniform bs + 1

def exRng : Rng G where
  adviceRows _ _ r := ((r % 2 : ℕ) : G)
  adviceBlind i j := (i + 3 * j + 7 : ℕ)
  permuted i j := (i + j + 1 : ℕ)
  permutedBlind i := ((2 * i + 5 : ℕ), (3 * i + 1 : ℕ))
  permutation i j k := (i + j + k + 2 : ℕ)
  productBlind i := (i + 11 : ℕ)
  lookup i j := (i + j + 4 : ℕ)
  randomPoly i := (i + 6 : ℕ)
  randomBlind := 9
  hBlind i := (i + 13 : ℕ)
  qBlind := 17
  ipa := ⟨fun i => (i : ℕ), 1, fun i => ((3 + i : ℕ), 1)⟩

/-- Keys, proof and challenges for the circuit `exCs` with two usable rows. -/
def exRun : Option (List G) :=
  (Verif.Domain.new consts97 4 3).bind fun d =>
  (Commitment.Params.new 2 consts97 exHash 3).bind fun pr =>
  (keygenPk 2 d 5 exFixed (permsOf d exCs 5 exCalls)).bind fun pk =>
  (keygenVk pr 2 exFixed (permsOf d exCs 5 exCalls)).bind fun _ =>
  (createProof 2 (enc sumHash uniform) pr d exCs 5 2 exRng pk [[[1, 1, 0, 0, 0, 0, 0, 0]]] [[]]
    W.init).toOption.map fun r => r.2.trace.reverse

theorem exRun_eq : exRun = some [14, 13, 45, 46, 76, 19, 76, 85, 68, 36, 93, 93, 72, 33] := by
  decide +kernel

/-- The hypotheses of `honest_proof_verifies` hold for this run: the proof is accepted. -/
theorem exRun_verifies : ∃ d pr pk vk st', Verif.Domain.new consts97 4 3 = some d ∧
    Commitment.Params.new 2 consts97 exHash 3 = some pr ∧
    keygenPk 2 d 5 exFixed (permsOf d exCs 5 exCalls) = some pk ∧
    keygenVk pr 2 exFixed (permsOf d exCs 5 exCalls) = some vk ∧
    createProof 2 (enc sumHash uniform) pr d exCs 5 2 exRng pk [[[1, 1, 0, 0, 0, 0, 0, 0]]] [[]]
      W.init = .ok ((), st') ∧
    ∀ rest, verifySingle (enc sumHash uniform) pr d exCs 5 vk [[]] (R.init (st'.out ++ rest))
      = .ok ((), ⟨st'.absorbed, rest, st'.trace⟩) := by
  have h := exRun_eq
  unfold exRun at h
  obtain ⟨d, hd, h⟩ := Option.bind_eq_some_iff.1 h
  obtain ⟨pr, hpr, h⟩ := Option.bind_eq_some_iff.1 h
  obtain ⟨pk, hpk, h⟩ := Option.bind_eq_some_iff.1 h
  obtain ⟨vk, hvk, h⟩ := Option.bind_eq_some_iff.1 h
  obtain ⟨⟨_, st'⟩, hst, htr⟩ := Option.map_eq_some_iff.1 h
  have hst : createProof 2 (enc sumHash uniform) pr d exCs 5 2 exRng pk
      [[[1, 1, 0, 0, 0, 0, 0, 0]]] [[]] W.init = .ok ((), st') := by
    rcases hc : createProof 2 (enc sumHash uniform) pr d exCs 5 2 exRng pk
      [[[1, 1, 0, 0, 0, 0, 0, 0]]] [[]] W.init with err | ⟨u, s⟩
    · rw [hc] at hst; cases hst
    · rw [hc] at hst; cases hst; rfl
  refine ⟨d, pr, pk, vk, st', hd, hpr, hpk, hvk, hst, fun rest => ?_⟩
  obtain ⟨h1, -⟩ := Verif.Domain.new_spec consts97 consts97_valid 4 3
  obtain ⟨hv, hk, hq, _, -⟩ := h1 d hd
  have hn : d.n = 8 := by rw [hv.n_eq, hk]; rfl
  have hw : d.omega = 64 := by
    have : (Verif.Domain.new consts97 4 3).map (·.omega) = some 64 := by decide +kernel
    rw [hd] at this
    exact Option.some.inj this
  have hwit : witness d.n exCs.blindingFactors exRng [[[1, 1, 0, 0, 0, 0, 0, 0]]] [[]]
      = [⟨[[1, 1, 0, 1, 0, 1, 0, 1]], []⟩] := by
    rw [hn, ex_bf]; rfl
  refine honest_proof_verifies consts97_valid (by decide) (by decide) hd hpr (enc_valid _ _) exCs
    (by rw [ex_degree]) (hn ▸ exReady) (by rw [ex_bf, hn]; decide) (by decide) 5 2 exFixed rfl
    (by rw [hn]; decide) exCalls (by rw [hn, ex_bf]; decide) pk (by rw [ex_bf]; exact hpk) vk hvk
    exRng _ _ ?_ ?_ st' hst ?_ rest
  · rw [hn]; decide
  · rw [hwit]
    intro w hw
    rw [List.mem_singleton] at hw
    subst hw
    refine ⟨rfl, rfl, ?_, ?_, ?_, ?_, ?_⟩
    · rw [hn]; decide
    · rw [hn]; decide
    · rw [hn]; decide +kernel
    · rw [hn]; exact (Verif.Permutation.copiesHold_iff (bf := 1) (by decide) _).2 (by decide +kernel)
    · rw [hn, ex_bf]; decide +kernel
  · have htr : st'.trace.reverse = [14, 13, 45, 46, 76, 19, 76, 85, 68, 36, 93, 93, 72, 33] := htr
    rw [hwit, htr]
    constructor
    · rintro _ _ _ _ _ ⟨⟩ w hw'
      rw [List.mem_singleton] at hw'
      subst hw'
      constructor
      · rw [hn, ex_bf, hw]; decide +kernel
      · rw [hn, ex_bf]; decide +kernel
    · rintro _ _ _ _ _ _ ⟨⟩
      rw [hn]; decide +kernel
    · rintro _ _ _ _ _ _ _ _ _ ⟨⟩
      rw [hn]; decide +kernel

end Example

end Verif.Protocol
