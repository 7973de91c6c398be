import Verif.EndToEnd.Simple
import Verif.Protocol.Total

/-!
# An honest prover ends (C84 for whole circuits)

`honest_circuit` assumes that the prover finishes a proof.  Here: for an executed circuit the prover
always ends, with a proof, a transcript error or an opening error, and the proof verifies unless a
challenge was exceptional.
-/

namespace Verif.EndToEnd

open Verif.Cs (Cs Column)
open Verif.Domain (Domain Consts)
open Verif.Floor (ROp COp Owner)
open Verif.Layout
open Verif.Link
open Verif.Region (Grid Gates LookupArg)
open Verif.Rows
open Verif.Protocol
open Verif.Msm Verif.Transcript

variable {C S F K A : Type} [Field F] [LinearOrder F] [AddCommGroup A] [Module F A] [Field K]
  [LinearOrder K]
  {ι : C → Column} {σ : S → ℕ} {gates : Gates C S F} {lookups : List (LookupArg C S F)}
  {tables : ℕ → Prop} {constants : List ℕ}

/-- **C84** for circuits: with keys from key generation and executions of the circuit for all
instances, `create_proof` returns a proof that the verifier accepts unless a challenge was
exceptional, or an error of the transcript or of the opening argument; it does not panic and there is
no other error.  The hash to the field must not give zero. -/
theorem honest_circuit_ends [DecidableEq A] (hι : Function.Injective ι) {threads threads' k : ℕ}
    {c : Consts F} (hc : c.Valid)
    (ht : threads ≠ 0) (ht' : threads' ≠ 0) {hasher : Bytes → A} {pr : Params A}
    (hpr : Commitment.Params.new threads' c hasher k = some pr) {e : Enc F K A} (he : e.Valid)
    (h0 : ∀ bs, e.fromUniform bs ≠ 0)
    {cs : Cs F} {simple : ℕ → Bool} (hconf : Configured cs (2 ^ k) simple)
    (hcols : cs.lookups ≠ [] → cs.numFixed + cs.numAdvice + cs.numInstance ≠ 0)
    {delta repr : F} {kops : List (Op F)} {keys : Keys F A}
    (hkeys : keygen threads c pr delta repr cs kops = some keys)
    (runs : List (List (List F) × List (Op F))) (circuits : List (List (List F)))
    (hruns : List.Forall₂ (fun q a => SameCircuit kops q.2 ∧
      (q.1.length = cs.numInstance ∧ ∀ v ∈ q.1, v.length ≤ 2 ^ k - (cs.blindingFactors + 1)) ∧
      (∃ ops regions starts calls, Execution ι σ gates lookups tables constants cs (2 ^ k) q.1 q.2
        ops regions starts calls) ∧
      adviceOf keys.cs (2 ^ k) q.1 q.2 = some a) runs circuits)
    (rng : Rng F) :
    (∃ st', createProof threads e pr keys.domain keys.cs delta repr rng keys.pk circuits
        (runs.map Prod.fst) W.init = .ok ((), st') ∧
      (Lucky keys.domain keys.cs delta keys.pk.fixedValues
        (witness keys.domain.n keys.cs.blindingFactors rng circuits (runs.map Prod.fst))
        st'.trace.reverse → ∀ rest : Bytes,
        verifySingle e pr keys.domain keys.cs delta keys.vk (runs.map Prod.fst)
          (R.init (st'.out ++ rest)) = .ok ((), ⟨st'.absorbed, rest, st'.trace⟩))) ∨
    createProof threads e pr keys.domain keys.cs delta repr rng keys.pk circuits
      (runs.map Prod.fst) W.init = .error .io ∨
    createProof threads e pr keys.domain keys.cs delta repr rng keys.pk circuits
      (runs.map Prod.fst) W.init = .error .opening := by
  obtain ⟨fv, perm, hd, hdn, hset, has, hpk, hvk⟩ := keygen_spec hc ht ht' hpr hconf hkeys
  have hmin : cs.blindingFactors + 1 + 1 + 1 ≤ 2 ^ k := has.rows
  have hfind : ∀ (i : ℕ) (h2 : i < runs.length) (h1 : i < circuits.length), _ :=
    fun i h2 h1 => (List.forall₂_iff_get.1 hruns).2 i h2 h1
  simp only [List.get_eq_getElem] at hfind
  have hl := hruns.length_eq
  have hends := createProof_fails hc ht ht' hd hpr he h0 keys.cs (by rw [hdn]; exact has.ready)
    (by rw [hdn, has.blinding]; omega) ?_ delta repr fv has.fixedLen (by rw [hdn]; exact has.fixedRows)
    _ keys.pk hpk rng circuits (runs.map Prod.fst) (by simp [hl]) ?_ ?_ ?_ W.init
  · rcases hends with ⟨st', hprove⟩ | herr
    · exact .inl ⟨st', hprove, fun hlucky rest => honest_circuit hι hc ht ht' hpr he hconf hcols hkeys
        runs circuits hruns rng st' hprove hlucky rest⟩
    · exact .inr herr
  · intro hl
    have := hcols fun h0 => hl (has.lookups.2 h0)
    have := has.numFixed
    rw [has.numAdvice, has.numInstance]
    omega
  · have hr : ∀ i ∈ runs.map Prod.fst, i.length = cs.numInstance ∧
        ∀ v ∈ i, v.length ≤ 2 ^ k - (cs.blindingFactors + 1) := by
      intro i hi
      obtain ⟨q, hq, rfl⟩ := List.mem_map.1 hi
      obtain ⟨j, hj, rfl⟩ := List.mem_iff_getElem.1 hq
      exact (hfind j hj (by omega)).2.1
    refine ⟨fun i hi => (hr i hi).1.trans has.numInstance.symm, fun _ => ?_, fun i hi v hv => ?_⟩
    · rw [hdn, has.blinding]; omega
    · rw [hdn, has.blinding]
      exact (hr i hi).2 v hv
  · intro a ha
    obtain ⟨i, hi, rfl⟩ := List.mem_iff_getElem.1 ha
    have h3 := (hfind i (by omega) hi).2.2.2
    rw [adviceOf_eq] at h3
    rw [← Option.some.inj h3, hdn]
    refine ⟨by simp [grid], fun v hv => ?_⟩
    simp only [grid, List.mem_map] at hv
    obtain ⟨_, _, rfl⟩ := hv
    simp
  · intro w hw
    unfold Protocol.witness at hw
    obtain ⟨q, hq, rfl⟩ := List.mem_map.1 hw
    obtain ⟨i, hi, rfl⟩ := List.mem_iff_getElem.1 hq
    have hi1 : i < circuits.length := by
      simp only [List.length_zip, List.length_map, List.length_zipIdx] at hi; omega
    obtain ⟨x1, ⟨x2, x3⟩, ⟨ops, regions, starts, calls, x4⟩, x5⟩ := hfind i (by omega) hi1
    simp only [List.getElem_zip, List.getElem_map, List.getElem_zipIdx, hdn, zero_add]
    have hs := sat_of_meets hconf has hdn x1 x2 x3 (x4.meets hι) x5 rng.adviceRows i
    exact ⟨hs.adviceLen, hs.instLen, hs.advice, hs.inst, hs.lookups⟩

/-- **C84** for the tutorial circuit (C85): for all private inputs and the right instances, the prover
ends with a proof that the verifier accepts, unless a challenge was exceptional, or with an error of
the transcript or of the opening argument. -/
theorem Simple.ends [DecidableEq A] (hchar : ∀ i : ℕ, 0 < i → i ≤ 3 → (i : F) ≠ 0) (constant : F)
    {threads threads' k : ℕ} (hk : 4 ≤ k) {c : Consts F} (hc : c.Valid) (ht : threads ≠ 0)
    (ht' : threads' ≠ 0) {hasher : Bytes → A} {pr : Params A}
    (hpr : Commitment.Params.new threads' c hasher k = some pr) (hkS : k + 1 ≤ c.S)
    {e : Enc F K A} (he : e.Valid) (h0 : ∀ bs, e.fromUniform bs ≠ 0) (delta repr : F) {a₀ b₀ : F}
    {kops : List (Op F)} (hkops : execute constant a₀ b₀ = some kops) :
    ∃ cs keys, configure = some cs ∧ keygen threads c pr delta repr cs kops = some keys ∧
      ∀ inputs : List (F × F), ∃ circuits : List (List (List F)),
        List.Forall₂ (fun q a => ∃ rops, execute constant q.1 q.2 = some rops ∧
          adviceOf keys.cs (2 ^ k) [[constant * q.1 ^ 2 * q.2 ^ 2]] rops = some a) inputs circuits ∧
        ∀ rng : Rng F,
          (∃ st', createProof threads e pr keys.domain keys.cs delta repr rng keys.pk circuits
              (inputs.map fun q => [[constant * q.1 ^ 2 * q.2 ^ 2]]) W.init = .ok ((), st') ∧
            (Lucky keys.domain keys.cs delta keys.pk.fixedValues
              (witness keys.domain.n keys.cs.blindingFactors rng circuits
                (inputs.map fun q => [[constant * q.1 ^ 2 * q.2 ^ 2]]))
              st'.trace.reverse → ∀ rest : Bytes,
              verifySingle e pr keys.domain keys.cs delta keys.vk
                (inputs.map fun q => [[constant * q.1 ^ 2 * q.2 ^ 2]])
                (R.init (st'.out ++ rest)) = .ok ((), ⟨st'.absorbed, rest, st'.trace⟩))) ∨
          createProof threads e pr keys.domain keys.cs delta repr rng keys.pk circuits
            (inputs.map fun q => [[constant * q.1 ^ 2 * q.2 ^ 2]]) W.init = .error .io ∨
          createProof threads e pr keys.domain keys.cs delta repr rng keys.pk circuits
            (inputs.map fun q => [[constant * q.1 ^ 2 * q.2 ^ 2]]) W.init = .error .opening := by
  rw [execute_eq] at hkops
  obtain rfl := Option.some.inj hkops
  have hn : 16 ≤ 2 ^ k := le_trans (by decide) (Nat.pow_le_pow_right (by decide) hk : 2 ^ 4 ≤ 2 ^ k)
  have hconf : Configured (theCs : Cs F) (2 ^ k) (fun _ => true) := configured (by omega) hchar
  obtain ⟨keys, hkeys⟩ := keys_exist hchar constant a₀ b₀ hk hc ht ht' hpr hkS delta repr
  refine ⟨theCs, keys, configure_eq, hkeys, fun inputs => ?_⟩
  have hadv : ∀ q : F × F, ∃ a, adviceOf keys.cs (2 ^ k) [[constant * q.1 ^ 2 * q.2 ^ 2]]
      (backends (fun _ => true) 1 [] (calls constant q.1 q.2)) = some a :=
    fun q => ⟨_, adviceOf_eq _ _ _ _⟩
  choose adv hadv using hadv
  refine ⟨inputs.map adv, ?_, fun rng => ?_⟩
  · rw [List.forall₂_map_right_iff]
    exact List.forall₂_same.2 fun q _ => ⟨_, execute_eq _ _ _, hadv q⟩
  · have := honest_circuit_ends (ι := (Subtype.val : Col → Column)) (σ := (Fin.val : Fin 1 → ℕ))
      (gates := gates) (lookups := []) (tables := (· = 1))
      (constants := [0]) Subtype.val_injective hc ht ht' hpr he h0 hconf (by simp [theCs]) hkeys
      (inputs.map fun q => ([[constant * q.1 ^ 2 * q.2 ^ 2]],
        backends (fun _ => true) 1 [] (calls constant q.1 q.2))) (inputs.map adv) ?_ rng
    · simpa only [List.map_map, Function.comp_def] using this
    · rw [List.forall₂_map_left_iff, List.forall₂_map_right_iff]
      refine List.forall₂_same.2 fun q _ => ⟨same _ _ _ _ _, ⟨by simp [theCs], ?_⟩, ⟨_, _, _, _,
        (exec_of constant q.1 q.2).2 (2 ^ k) (by omega)⟩, hadv q⟩
      intro v hv
      rw [List.mem_singleton] at hv
      subst hv
      rw [blinding_eq]
      show 1 ≤ _
      omega

end Verif.EndToEnd
