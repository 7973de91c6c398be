import Verif.Link.Lemmas
import Verif.Protocol.Props

/-!
# C54: what the mock prover accepts can be proved and verified
-/

namespace Verif.Link

open Verif.Assigned (Assigned)
open Verif.Cs (Cs Column Kind Reach)
open Verif.Domain (Domain Consts)
open Verif.ExprEval (Cols)
open Verif.Rows
open Verif.Plonk (Pk Circuit Ready cols colValues Sat permsOf)
open Verif.Protocol
open Verif.Msm Verif.Transcript
open Verif.Mock (cellVal assignment)

variable {F K A : Type} [Field F] [AddCommGroup A] [Module F A] [Field K]

theorem permPolys_congr [DecidableEq F] {l l' : List Column} {n n' : ℕ} (hl : l' = l) (hn : n' = n)
    (omega delta : F) (calls : List (Copy.Call Column)) :
    Verif.Permutation.permPolys omega delta (Copy.run (Copy.new l n) calls).mapping =
      Verif.Permutation.permPolys omega delta (Verif.Permutation.keyMapping l' n' calls) := by
  subst hl hn
  rfl

theorem k_of_new {threads k : ℕ} {c : Consts F} {hasher : Bytes → A} {pr : Params A}
    (hpr : Commitment.Params.new threads c hasher k = some pr) : pr.k = k := by
  unfold Commitment.Params.new at hpr
  split_ifs at hpr
  obtain ⟨g, -, hpr⟩ := Option.bind_eq_some_iff.1 hpr
  obtain ⟨gl, -, hpr⟩ := Option.bind_eq_some_iff.1 hpr
  obtain ⟨gl', -, hpr⟩ := Option.bind_eq_some_iff.1 hpr
  cases hpr
  rfl

/-- What key generation returns. -/
theorem keygen_spec [DecidableEq F] {threads threads' k : ℕ} {c : Consts F} (hc : c.Valid)
    (ht : threads ≠ 0) (ht' : threads' ≠ 0) {hasher : Bytes → A} {pr : Params A}
    (hpr : Commitment.Params.new threads' c hasher k = some pr) {cs : Cs F} {simple : ℕ → Bool}
    (hconf : Configured cs (2 ^ k) simple) {delta repr : F} {ops : List (Op F)} {keys : Keys F A}
    (hk : keygen threads c pr delta repr cs ops = some keys) :
    ∃ fv perm, Verif.Domain.new c cs.degree k = some keys.domain ∧ keys.domain.n = 2 ^ k ∧
      Setup threads pr keys.domain ∧
      Assembled cs (2 ^ k) ops keys.cs fv perm ∧
      Verif.Plonk.keygenPk threads keys.domain keys.cs.blindingFactors fv (permsOf keys.domain keys.cs
        delta (ops.filterMap (copyCall (2 ^ k - (cs.blindingFactors + 1))))) = some keys.pk ∧
      keygenVk pr repr fv (permsOf keys.domain keys.cs delta
        (ops.filterMap (copyCall (2 ^ k - (cs.blindingFactors + 1))))) = some keys.vk := by
  unfold keygen at hk
  obtain ⟨d, hd, hk⟩ := Option.bind_eq_some_iff.1 hk
  have hprk := k_of_new hpr
  rw [hprk] at hd
  obtain ⟨hset, -⟩ := setup_of_new ht ht' hc hd hpr
  have hdn : d.n = 2 ^ k := by
    obtain ⟨hv, hk', -⟩ := (Verif.Domain.new_spec c hc cs.degree k).1 d hd
    rw [hv.n_eq, hk']
  have hprn : pr.n = 2 ^ k := hset.n_eq.trans hdn
  rw [hprn] at hk
  obtain ⟨a, ha, hk⟩ := Option.bind_eq_some_iff.1 hk
  have has := assemble_spec hconf ha
  obtain ⟨vk, hvk, hk⟩ := Option.bind_eq_some_iff.1 hk
  obtain ⟨pk, hpk, hk⟩ := Option.map_eq_some_iff.1 hk
  cases hk
  dsimp only
  rw [has.perm, permPolys_congr has.permutation hdn] at hvk hpk
  exact ⟨a.2.1, a.2.2, hd, hdn, hset, has, hpk, hvk⟩

/-- C56: key generation fails exactly when the extended domain does not exist for the circuit's
degree, when there are fewer than the minimum number of rows, or when synthesis enables a selector
that does not exist. -/
theorem keygen_total [DecidableEq F] {threads threads' k : ℕ} {c : Consts F} (hc : c.Valid)
    (ht : threads ≠ 0) (ht' : threads' ≠ 0) {hasher : Bytes → A} {pr : Params A}
    (hpr : Commitment.Params.new threads' c hasher k = some pr) {cs : Cs F} {simple : ℕ → Bool}
    (hconf : Configured cs (2 ^ k) simple) (delta repr : F) (ops : List (Op F)) :
    keygen threads c pr delta repr cs ops ≠ none ↔
      (1 ≤ cs.degree ∧ k ≤ c.S ∧ 2 ^ k * (cs.degree - 1) ≤ 2 ^ c.S) ∧ cs.minimumRows ≤ 2 ^ k ∧
      SelectorsOk (2 ^ k - (cs.blindingFactors + 1)) cs.numSelectors ops := by
  rw [← assemble_total hconf, ← (Verif.Domain.new_spec c hc cs.degree k).2]
  unfold keygen
  rw [k_of_new hpr]
  rcases hd : Verif.Domain.new c cs.degree k with _ | d
  · simp
  obtain ⟨hset, -⟩ := setup_of_new ht ht' hc hd hpr
  have hdn : d.n = 2 ^ k := by
    obtain ⟨hv, hk', -⟩ := (Verif.Domain.new_spec c hc cs.degree k).1 d hd
    rw [hv.n_eq, hk']
  rw [Option.bind_some, hset.n_eq.trans hdn]
  rcases ha : assemble cs (2 ^ k) ops with _ | a
  · simp
  have has := assemble_spec hconf ha
  have hmin : cs.blindingFactors + 1 + 1 + 1 ≤ 2 ^ k := has.rows
  have hpl := (Verif.Permutation.permPolys_length d.omega delta a.2.2.mapping).2
  have hcm : ∀ l : List (List F), (∀ v ∈ l, v.length = 2 ^ k) →
      ∃ r, l.mapM (fun v => pr.commitLagrange v 1) = some r := by
    intro l hl
    induction l with
    | nil => exact ⟨[], rfl⟩
    | cons v l ih =>
      obtain ⟨r, hr⟩ := ih fun u hu => hl u (List.mem_cons_of_mem _ hu)
      have hv := hset.lagrange v 1 (by rw [hdn]; exact hl v List.mem_cons_self)
      exact ⟨_ :: r, by rw [List.mapM_cons, hv, hr]; rfl⟩
  obtain ⟨r1, hr1⟩ := hcm _ hpl
  obtain ⟨r2, hr2⟩ := hcm _ has.fixedRows
  obtain ⟨pk, _, _, _, _, _, hpk, -⟩ := Verif.Plonk.keygenPk_spec hset.domain ht a.1.blindingFactors
    (by rw [has.blinding, hdn]; omega) a.2.1
    (Verif.Permutation.permPolys d.omega delta a.2.2.mapping) (by rw [hdn]; exact has.fixedRows)
    (by rw [hdn]; exact hpl)
  rw [Option.bind_some]
  dsimp only
  rw [hpk]
  unfold keygenVk
  rw [hr1, Option.bind_some, hr2]
  simp

/-- The advice columns are the last writes to each cell. -/
theorem adviceOf_eq [DecidableEq F] (cs : Cs F) (n : ℕ) (inst : List (List F)) (ops : List (Op F)) :
    adviceOf cs n inst ops = some (grid cs.numAdvice n fun c r =>
      (lastWrite (adviceWrite (n - (cs.blindingFactors + 1)) c r) ops).elim 0 Assigned.evaluate) := by
  unfold adviceOf
  rw [witness_run, Option.bind_some, Verif.Assigned.batchInvertAssigned_eq]
  simp only [Witness.after, grid, List.map_map]
  congr 1
  refine List.map_congr_left fun c _ => ?_
  simp only [Function.comp, List.map_map]
  refine List.map_congr_left fun r _ => ?_
  simp only [Function.comp]
  rcases lastWrite (adviceWrite (n - (cs.blindingFactors + 1)) c r) ops with _ | x
  · rfl
  · rfl

theorem pad_getD (n : ℕ) (v : List F) (r : ℕ) : (pad n v).getD r 0 = v.getD r 0 := by
  unfold Verif.Protocol.pad
  by_cases h : r < v.length
  · rw [List.getD_append _ _ _ _ h]
  · rw [List.getD_append_right _ _ _ _ (by omega), List.getD_eq_default v _ (by omega)]
    rw [List.getD_eq_getElem?_getD, List.getElem?_replicate]
    split_ifs <;> rfl

theorem pads_getD (n : ℕ) (inst : List (List F)) (c r : ℕ) :
    ((inst.map (pad n)).getD c []).getD r 0 = (inst.getD c []).getD r 0 := by
  by_cases h : c < inst.length
  · rw [List.getD_eq_getElem (inst.map _) _ (by simpa using h), List.getElem_map, pad_getD,
      List.getD_eq_getElem inst _ h]
  · rw [List.getD_eq_default (inst.map _) _ (by simpa using h),
      List.getD_eq_default inst _ (by omega)]

/-- The blinded columns the prover works with. -/
theorem blindCircuit_cell (m n bf : ℕ) (f : ℕ → ℕ → F) (rng : ℕ → ℕ → ℕ → F) (i c r : ℕ)
    (hc : c < m) (hr : r < n) :
    ((blindCircuit n bf rng i (grid m n f)).getD c []).getD r 0 =
      if r < n - (bf + 1) then f c r else rng i c (r - (n - (bf + 1))) := by
  unfold blindCircuit
  have hl : c < (grid m n f).length := by simpa [grid] using hc
  rw [List.getD_eq_getElem (List.mapIdx _ _) _ (by simpa using hl), List.getElem_mapIdx]
  have hg : (grid m n f)[c] = (List.range n).map (f c) := by simp [grid]
  rw [hg]
  unfold Verif.Protocol.blindColumn
  split_ifs with h
  · rw [List.getD_append _ _ _ _ (by simp; omega),
      List.getD_eq_getElem _ _ (by simp; omega)]
    simp
  · rw [List.getD_append_right _ _ _ _ (by simp; omega), List.getD_eq_getElem _ _ (by simp; omega)]
    simp only [List.getElem_map, List.getElem_range, List.length_take, List.length_map,
      List.length_range]
    congr 1
    omega

/-- The mock prover's checks on the instance. -/
theorem init_inst {cs : Cs F} {n : ℕ} {inst : List (List F)} {s : Rows.Mock F cs.permutation n}
    (h : Rows.Mock.init cs n inst = some s) : inst.length = cs.numInstance ∧
      ∀ v ∈ inst, v.length ≤ n - (cs.blindingFactors + 1) := by
  unfold Rows.Mock.init at h
  dsimp only at h
  split_ifs at h with h1 h2 h3
  refine ⟨by omega, fun v hv => ?_⟩
  by_contra hcon
  exact h3 (List.any_eq_true.2 ⟨v, hv, by simpa using hcon⟩)

theorem blindCircuit_len {n bf m : ℕ} {rng : ℕ → ℕ → ℕ → F} {i : ℕ} {a : List (List F)}
    (h1 : a.length = m) (h2 : ∀ v ∈ a, v.length = n) :
    (blindCircuit n bf rng i a).length = m ∧ ∀ v ∈ blindCircuit n bf rng i a, v.length = n := by
  unfold blindCircuit
  refine ⟨by simpa using h1, ?_⟩
  intro v hv
  obtain ⟨j, hj, rfl⟩ := List.mem_iff_getElem.1 hv
  rw [List.getElem_mapIdx]
  exact blindColumn_length _ (h2 _ (List.getElem_mem _))

theorem fixedValues_of {threads : ℕ} {d : Domain F} {bf : ℕ} {fv perms : List (List F)} {pk : Pk F}
    (hpk : Verif.Plonk.keygenPk threads d bf fv perms = some pk) : pk.fixedValues = fv := by
  unfold Verif.Plonk.keygenPk at hpk
  obtain ⟨_, -, hpk⟩ := Option.bind_eq_some_iff.1 hpk
  obtain ⟨_, -, hpk⟩ := Option.bind_eq_some_iff.1 hpk
  obtain ⟨_, -, hpk⟩ := Option.bind_eq_some_iff.1 hpk
  obtain ⟨_, -, hpk⟩ := Option.bind_eq_some_iff.1 hpk
  obtain ⟨_, -, hpk⟩ := Option.bind_eq_some_iff.1 hpk
  obtain ⟨_, -, hpk⟩ := Option.bind_eq_some_iff.1 hpk
  obtain ⟨_, -, hpk⟩ := Option.map_eq_some_iff.1 hpk
  rw [← hpk]

omit [Field F] in
theorem calls_usable (usable : ℕ) (ops : List (Op F)) :
    ∀ c ∈ ops.filterMap (copyCall usable), c.leftRow < usable ∧ c.rightRow < usable := by
  intro q hq
  obtain ⟨o, ho, hoc⟩ := List.mem_filterMap.1 hq
  cases o with
  | copy lc lr rc rr =>
    simp only [copyCall] at hoc
    split_ifs at hoc with hu
    cases hoc
    exact hu
  | _ => cases hoc

section

variable [LinearOrder F] [LinearOrder K]

/-- An accepted run of the mock prover gives columns that fulfil the constraint system of the keys. -/
theorem sat_of_mock {k : ℕ} (hk : k ≤ 64) {cs cs' : Cs F} {simple : ℕ → Bool}
    (hconf : Configured cs (2 ^ k) simple) {kops : List (Op F)} {fv : List (List F)}
    {perm : Copy.Assembly cs.permutation (2 ^ k)} (has : Assembled cs (2 ^ k) kops cs' fv perm)
    {d : Domain F} (hd : d.n = 2 ^ k) {inst : List (List F)} {ops : List (Op F)}
    (hsame : SameCircuit kops ops) {infos : List Mock.GateInfo}
    (hmock : mock cs (2 ^ k) infos inst ops = some (.ok ())) {a : List (List F)}
    (ha : adviceOf cs' (2 ^ k) inst ops = some a) (rng : ℕ → ℕ → ℕ → F) (i : ℕ) :
    Sat d cs' fv (kops.filterMap (copyCall (2 ^ k - (cs.blindingFactors + 1))))
      ⟨blindCircuit (2 ^ k) cs'.blindingFactors rng i a, inst.map (pad (2 ^ k))⟩ := by
  unfold mock at hmock
  obtain ⟨s₀, h0, hmock⟩ := Option.bind_eq_some_iff.1 hmock
  obtain ⟨s, h1, hmock⟩ := Option.bind_eq_some_iff.1 hmock
  obtain ⟨⟨cs₁, s'⟩, h2, hmock⟩ := Option.bind_eq_some_iff.1 hmock
  have hi := Verif.Cs.reach_inv hconf.reach
  have hsat := Mock.mock_accepts cs hconf.reach hconf.built hconf.fixed
    (fun c hc hkd => by have := hconf.perm hc; rw [hkd] at this; exact this) simple hconf.flagG
    hconf.flagL hconf.char k hk inst ops infos s₀ s cs₁ s' h0 h1 h2 hmock
    (fun c r => rng i c (r - (2 ^ k - (cs.blindingFactors + 1))))
  obtain ⟨hil, hiv⟩ := init_inst h0
  rw [adviceOf_eq, has.numAdvice, has.blinding] at ha
  cases ha
  obtain ⟨hb1, hb2⟩ := blindCircuit_len (rng := rng) (i := i) (bf := cs.blindingFactors)
    (m := cs.numAdvice) (n := 2 ^ k) (a := grid cs.numAdvice (2 ^ k) fun c r =>
      (lastWrite (adviceWrite (2 ^ k - (cs.blindingFactors + 1)) c r) ops).elim 0 Assigned.evaluate)
    (by simp [grid]) (by
      intro v hv
      simp only [grid, List.mem_map] at hv
      obtain ⟨_, _, rfl⟩ := hv
      simp)
  rw [has.blinding]
  have hful := (has.same ⟨blindCircuit (2 ^ k) cs.blindingFactors rng i
      (grid cs.numAdvice (2 ^ k) fun c r =>
        (lastWrite (adviceWrite (2 ^ k - (cs.blindingFactors + 1)) c r) ops).elim 0
          Assigned.evaluate), inst.map (pad (2 ^ k))⟩).2 (by
    refine meets_same (ops := ops) hsame.symm ?_
    refine meets_agree hconf (t := assignment (2 ^ k - (cs.blindingFactors + 1)) inst ops
      fun c r => rng i c (r - (2 ^ k - (cs.blindingFactors + 1)))) ⟨?_, ?_, ?_⟩
      ⟨hsat.gates, hsat.lookups, hsat.copies⟩
    · intro c hc r hr
      rw [fixedCells_same hsame]
      rfl
    · intro c hc r hr
      dsimp only [cols]
      rw [blindCircuit_cell _ _ _ _ _ _ _ _ hc hr]
      rfl
    · intro c hc r hr
      dsimp only [cols]
      rw [pads_getD]
      rfl)
  obtain ⟨g1, g2, g3⟩ := hful
  refine ⟨by rw [has.numAdvice]; exact hb1, by rw [has.numInstance]; simpa using hil,
    by rw [hd]; exact hb2, ?_, by rw [hd]; exact g1, by rw [hd]; exact g2, by rw [hd]; exact g3⟩
  intro v hv
  obtain ⟨u, hu, rfl⟩ := List.mem_map.1 hv
  rw [hd]
  have := hiv u hu
  simp only [Verif.Protocol.pad, List.length_append, List.length_replicate]
  omega

/-- C54: a circuit configured through the API whose synthesis the mock prover accepts, for each of
several instances, has keys for which an honest proof of all of them, if the prover finishes one and
no challenge is exceptional, is accepted, and the verifier reads exactly the proof. -/
theorem mock_accepted_verifies [DecidableEq A] {threads threads' k : ℕ} {c : Consts F} (hc : c.Valid)
    (ht : threads ≠ 0) (ht' : threads' ≠ 0) {hasher : Bytes → A} {pr : Params A}
    (hpr : Commitment.Params.new threads' c hasher k = some pr) {e : Enc F K A} (he : e.Valid)
    {cs : Cs F} {simple : ℕ → Bool} (hconf : Configured cs (2 ^ k) simple)
    (hcols : cs.lookups ≠ [] → cs.numFixed + cs.numAdvice + cs.numInstance ≠ 0)
    {delta repr : F} {kops : List (Op F)} {keys : Keys F A}
    (hkeys : keygen threads c pr delta repr cs kops = some keys)
    (runs : List (List (List F) × List (Op F))) (circuits : List (List (List F)))
    (hruns : List.Forall₂ (fun q a => SameCircuit kops q.2 ∧
      (∃ infos, mock cs (2 ^ k) infos q.1 q.2 = some (.ok ())) ∧
      adviceOf keys.cs (2 ^ k) q.1 q.2 = some a) runs circuits)
    (rng : Rng F) (st' : WState F)
    (hprove : createProof threads e pr keys.domain keys.cs delta repr rng keys.pk circuits
      (runs.map Prod.fst) W.init = .ok ((), st'))
    (hlucky : Lucky keys.domain keys.cs delta keys.pk.fixedValues
      (witness keys.domain.n keys.cs.blindingFactors rng circuits (runs.map Prod.fst))
      st'.trace.reverse) (rest : Bytes) :
    verifySingle e pr keys.domain keys.cs delta keys.vk (runs.map Prod.fst)
      (R.init (st'.out ++ rest)) = .ok ((), ⟨st'.absorbed, rest, st'.trace⟩) := by
  obtain ⟨fv, perm, hd, hdn, hset, has, hpk, hvk⟩ := keygen_spec hc ht ht' hpr hconf hkeys
  have hfvs := fixedValues_of hpk
  rw [hfvs] at hlucky
  have hk64 : k ≤ 64 := by
    unfold Commitment.Params.new at hpr
    split_ifs at hpr
    omega
  have hmin : cs.blindingFactors + 1 + 1 + 1 ≤ 2 ^ k := has.rows
  refine honest_proof_verifies hc ht ht' hd hpr he keys.cs has.degree (by rw [hdn]; exact has.ready)
    (by rw [hdn, has.blinding]; omega) ?_ delta repr fv has.fixedLen (by rw [hdn]; exact has.fixedRows)
    _ ?_ keys.pk hpk keys.vk hvk rng circuits _ ?_ ?_ st' hprove hlucky rest
  · intro hl
    have := hcols fun h0 => hl (has.lookups.2 h0)
    have := has.numFixed
    rw [has.numAdvice, has.numInstance]
    omega
  · rw [hdn, has.blinding]
    exact calls_usable _ _
  · intro a ha
    obtain ⟨i, hi, rfl⟩ := List.mem_iff_getElem.1 ha
    have hx := (List.forall₂_iff_get.1 hruns).2 i (by rw [hruns.length_eq]; exact hi) hi
    simp only [List.get_eq_getElem] at hx
    have h3 := hx.2.2
    rw [adviceOf_eq] at h3
    rw [← Option.some.inj h3, hdn]
    refine ⟨by simp [grid], fun v hv => ?_⟩
    simp only [grid, List.mem_map] at hv
    obtain ⟨_, _, rfl⟩ := hv
    simp
  · intro w hw
    unfold witness at hw
    obtain ⟨q, hq, rfl⟩ := List.mem_map.1 hw
    obtain ⟨i, hi, rfl⟩ := List.mem_iff_getElem.1 hq
    have hl := hruns.length_eq
    have hi1 : i < circuits.length := by
      simp only [List.length_zip, List.length_map, List.length_zipIdx] at hi; omega
    have hi2 : i < runs.length := by omega
    have hx := (List.forall₂_iff_get.1 hruns).2 i hi2 hi1
    simp only [List.get_eq_getElem] at hx
    obtain ⟨x1, ⟨infos, x2⟩, x3⟩ := hx
    simp only [List.getElem_zip, List.getElem_map, List.getElem_zipIdx, hdn, zero_add]
    exact sat_of_mock hk64 hconf has hdn x1 x2 x3 rng.adviceRows i

end

end Verif.Link
