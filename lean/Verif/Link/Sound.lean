import Verif.Link.Props
import Verif.Sound.Protocol

/-!
# C55: an accepted proof satisfies the circuit as configured
-/

namespace Verif.Link

open Verif.Cs (Cs Column)
open Verif.Domain (Domain Consts)
open Verif.ExprEval (Cols)
open Verif.Rows
open Verif.Plonk (Circuit cols Violates)
open Verif.Protocol Verif.Sound
open Verif.Msm Verif.Transcript Polynomial

variable {F K A : Type} [Field F] [LinearOrder F] [AddCommGroup A] [Module F A] [Field K]
  [LinearOrder K]

theorem fulfils_of_not_violates {d : Domain F} {cs : Cs F} {fv : List (List F)}
    {calls : List (Copy.Call Column)} {w : Circuit F} (h : ¬ Violates d cs fv calls w) :
    Fulfils cs d.n fv calls w := by
  unfold Violates at h
  push Not at h
  exact ⟨h.1, h.2.1, h.2.2⟩

/-- C55: the keys of a circuit configured through the API.  Sets of bad challenges are fixed before
each challenge, of bounded size; whenever the verifier accepts a proof and no challenge of the
transcript is bad, a relation between generators of the parameters has been found, or for every
instance the columns committed to satisfy the circuit as configured, before selectors were replaced,
with the fixed cells, selectors and copies that synthesis asked key generation for. -/
theorem accepted_proof_meets [DecidableEq A] {threads threads' k T : ℕ} {c : Consts F} (hc : c.Valid)
    (ht : threads ≠ 0) (ht' : threads' ≠ 0) {hasher : Bytes → A} {pr : Params A}
    (hpr : Commitment.Params.new threads' c hasher k = some pr) {e : Enc F K A} (he : e.Valid)
    {cs : Cs F} {simple : ℕ → Bool} (hconf : Configured cs (2 ^ k) simple) {delta repr : F}
    (hdelta : IsPrimitiveRoot delta T) (hT : Nat.Coprime (2 ^ k) T) (hm : cs.permutation.length ≤ T)
    {ops : List (Op F)} {keys : Keys F A}
    (hkeys : keygen threads c pr delta repr cs ops = some keys) (instances : List (List (List F))) :
    ∃ bad : List (List (Comb F)) → List (Item F A (Comb F)) → Finset F,
      (∀ polys l, (bad polys l).card ≤
        proofBound keys.domain keys.cs instances.length (challenges l)) ∧
      ∀ rep, Algebraic pr rep → ∀ (hash : Hash F) (st st' : RState F),
        verifySingle (withHash e hash) pr keys.domain keys.cs delta keys.vk instances st
          = .ok ((), st') →
        ∃ inst advice st₁ gd m l,
          verifierColumns (withHash e hash) pr keys.cs keys.vk.repr instances st
            = .ok ((inst, advice), st₁) ∧
          verifyGuard (withHash e hash) pr keys.domain keys.cs delta keys.vk instances MSM.new st
            = .ok (gd, st') ∧
          gd.useChallenges pr = some m ∧
          Logged (withHash e hash) rep st₁.absorbed l st'.absorbed ∧
          advice.length = instances.length ∧ (∀ a ∈ advice, a.length = cs.numAdvice) ∧
          (Avoids (bad (advice.map fun a => a.map rep)) l →
            Relation pr (relOf e.toCoords rep m) ∨
            (∃ (v : List F) (C : A) (P : F[X]),
              v ∈ publicColumns keys.domain keys.cs delta keys.pk.fixedValues
                (ops.filterMap (copyCall (2 ^ k - (cs.blindingFactors + 1)))) instances ∧
              pr.commitLagrange v 1 = some C ∧ P.degree < (keys.domain.n : WithBot ℕ) ∧
              column keys.domain (P, 0, 1) = v ∧ Relation pr (rep C - (P, 0, 1))) ∨
            ∀ q ∈ advice.zip instances, Meets cs (2 ^ k) ops
              ⟨fixedCells cs (2 ^ k) ops,
               fun c r => (((q.1.map rep).map (column keys.domain)).getD c []).getD r 0,
               fun c r => (q.2.getD c []).getD r 0⟩) := by
  obtain ⟨fv, perm, hd, hdn, hset, has, hpk, hvk⟩ := keygen_spec hc ht ht' hpr hconf hkeys
  have hfvs := fixedValues_of hpk
  have hmin : cs.blindingFactors + 1 + 1 + 1 ≤ 2 ^ k := has.rows
  have hq := ((Verif.Domain.new_spec c hc cs.degree k).1 _ hd).2.2.1
  obtain ⟨bad, hcard, h⟩ := proof_sound (T := T) he hset ht (by rw [hq]; exact has.degree)
    (by rw [hdn]; exact has.ready) (by rw [hdn, has.blinding]; omega) has.width hdelta
    (by rw [hdn]; exact hT) (by rw [has.permutation]; exact hm) has.fixedLen
    (by rw [hdn]; exact has.fixedRows)
    (by rw [hdn, has.blinding]; exact calls_usable _ _) hpk hvk instances
  refine ⟨bad, hcard, fun rep hrep hash st st' hv => ?_⟩
  obtain ⟨inst, advice, st₁, gd, m, l, h1, h2, h3, h4, h5, h6, h7⟩ := h rep hrep hash st st' hv
  refine ⟨inst, advice, st₁, gd, m, l, h1, h2, h3, h4, h5, by rw [← has.numAdvice]; exact h6,
    fun hav => ?_⟩
  rw [hfvs]
  rcases h7 hav with h8 | ⟨v, hv1, C, P, hv2, hv3, hv4, hv5⟩ | h8
  · exact .inl h8
  · exact .inr (.inl ⟨v, C, P, hv1, hv2, hv3, hv4, hv5⟩)
  · refine .inr (.inr fun q hq => ?_)
    have hf := fulfils_of_not_violates (h8 q hq)
    rw [hdn] at hf
    have hm := (has.same _).1 hf
    refine meets_agree hconf ?_ hm
    refine ⟨fun _ _ _ _ => rfl, fun c _ r _ => ?_, fun c _ r _ => ?_⟩
    · dsimp only [cols]
      rw [List.map_map]
      rfl
    · dsimp only [cols]
      exact pads_getD _ _ _ _

end Verif.Link
