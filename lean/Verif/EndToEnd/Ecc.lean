import Verif.EccApi.Complete
import Verif.EndToEnd.Props

/-!
# What an accepted proof says about a circuit made of the elliptic curve API (C81)
-/

namespace Verif.EndToEnd

open Verif.Cs (Cs Column)
open Verif.Domain (Domain Consts)
open Verif.ExprEval (Cols)
open Verif.Floor (ROp COp Owner)
open Verif.Layout
open Verif.Link
open Verif.Mock (assignment)
open Verif.Region (Grid SatLookup Honest)
open Verif.Rows
open Verif.Protocol Verif.Sound
open Verif.Msm Verif.Transcript Polynomial
open Verif.EccApi (Call Env Vals HVals Steps HSteps Agrees Curve Fresh configure Selectors)

-- equality of field elements is decided by the order the proof system uses
attribute [-instance] ZMod.decidableEq

variable {C S K A : Type} {p q : ℕ} [Fact p.Prime] [Fact q.Prime] {b : ZMod p}
  [LinearOrder (ZMod p)] [AddCommGroup A] [Module (ZMod p) A] [Field K] [LinearOrder K]
  {ι : C → Column} {σ : S → ℕ} {tables : ℕ → Prop} {constants : List ℕ}
  {advices : Fin 10 → C} {lagrangeCoeffs : Fin 8 → C} {fixedZ : C}
  {rangeCheck : LookupRange.Config C S} {s : Selectors S}

/-- **C81**, soundness for the elliptic curve API: for a circuit made of any calls of the gadget,
without variable-base multiplications, and keys of a constraint system with the gates and the lookup of
the chip, whenever the verifier accepts a proof and no challenge of the transcript is bad, a
relation between generators of the parameters has been found, or for every instance the columns
committed to have in the cells of the handles the values that the calls mean, unless they have the
same point in the cells of the two operands of an incomplete addition; and the cells constrained to
the instance have its values. -/
theorem accepted_ecc [DecidableEq A] {threads threads' k T : ℕ} {c : Consts (ZMod p)} (hc : c.Valid)
    (ht : threads ≠ 0) (ht' : threads' ≠ 0) {hasher : Bytes → A} {pr : Params A}
    (hpr : Commitment.Params.new threads' c hasher k = some pr) {en : Enc (ZMod p) K A}
    (he : en.Valid) {cs : Cs (ZMod p)} {simple : ℕ → Bool} (hconf : Configured cs (2 ^ k) simple)
    {delta repr : ZMod p} (hdelta : IsPrimitiveRoot delta T) (hT : Nat.Coprime (2 ^ k) T)
    (hm : cs.permutation.length ≤ T) {rops : List (Op (ZMod p))} {keys : Keys (ZMod p) A}
    (hkeys : keygen threads c pr delta repr cs rops = some keys)
    (instances : List (List (List (ZMod p))))
    (hcv : Curve b) (hf : Fresh advices lagrangeCoeffs fixedZ rangeCheck s) {prog : List (Call b q)}
    (hb : ∀ c ∈ prog, c.BaseOk) (hmul : ∀ c ∈ prog, c.isMul = false) {e : Env C p q} {n : ℕ}
    {ops : List (Region.Op C S (ZMod p))}
    (hrun : EccApi.run false (configure advices lagrangeCoeffs fixedZ rangeCheck s) prog {} 0
      = some (e, n, ops))
    {regions : List (List (ROp (ZMod p)))} {starts : List ℕ}
    {calls : List (Owner × COp (ZMod p))} (hplan : Planned constants regions starts calls)
    (hcirc : ∀ t : Cols (ZMod p), t.fixed = fixedCells cs (2 ^ k) rops →
      Layout.Circuit ι σ (EccApi.gates b (configure advices lagrangeCoeffs fixedZ rangeCheck s))
        [LookupRange.lookup 10 rangeCheck] ops regions starts calls tables rops cs (2 ^ k) t) :
    ∃ bad : List (List (Comb (ZMod p))) → List (Item (ZMod p) A (Comb (ZMod p))) →
        Finset (ZMod p),
      (∀ polys l, (bad polys l).card ≤
        proofBound keys.domain keys.cs instances.length (challenges l)) ∧
      ∀ rep, Algebraic pr rep → ∀ (hash : Hash (ZMod p)) (st st' : RState (ZMod p)),
        verifySingle (withHash en hash) pr keys.domain keys.cs delta keys.vk instances st
          = .ok ((), st') →
        ∃ inst advice st₁ gd m l,
          verifierColumns (withHash en hash) pr keys.cs keys.vk.repr instances st
            = .ok ((inst, advice), st₁) ∧
          verifyGuard (withHash en hash) pr keys.domain keys.cs delta keys.vk instances MSM.new st
            = .ok (gd, st') ∧
          gd.useChallenges pr = some m ∧
          Logged (withHash en hash) rep st₁.absorbed l st'.absorbed ∧
          advice.length = instances.length ∧ (∀ a ∈ advice, a.length = cs.numAdvice) ∧
          (Avoids (bad (advice.map fun a => a.map rep)) l →
            Relation pr (relOf en.toCoords rep m) ∨
            (∃ (v : List (ZMod p)) (C : A) (P : (ZMod p)[X]),
              v ∈ publicColumns keys.domain keys.cs delta keys.pk.fixedValues
                (rops.filterMap (copyCall (2 ^ k - (cs.blindingFactors + 1)))) instances ∧
              pr.commitLagrange v 1 = some C ∧ P.degree < (keys.domain.n : WithBot ℕ) ∧
              column keys.domain (P, 0, 1) = v ∧ Relation pr (rep C - (P, 0, 1))) ∨
            ∀ q' ∈ advice.zip instances, ∃ G : Grid C (ZMod p),
              G = gridOf ι starts (2 ^ k) ⟨fixedCells cs (2 ^ k) rops,
               fun c r => (((q'.1.map rep).map (column keys.domain)).getD c []).getD r 0,
               fun c r => (q'.2.getD c []).getD r 0⟩ ∧
              ((∃ v : Vals b, Steps {} prog v ∧ Agrees G e v) ∨
                ∃ pre i j post, ∃ v : Vals b, ∃ P, ∃ (e1 : Env C p q) (n1 : ℕ)
                  (o1 : List (Region.Op C S (ZMod p))),
                  prog = pre ++ .addIncomplete i j :: post ∧ Steps {} pre v ∧
                  EccApi.run false (configure advices lagrangeCoeffs fixedZ rangeCheck s) pre {} 0
                    = some (e1, n1, o1) ∧
                  Agrees G e1 v ∧ v.nonIds[i]? = some P ∧ v.nonIds[j]? = some P) ∧
              ∀ (i : ℕ) r, regions[i]? = some r → ∀ cell column row,
                ROp.inst cell column row ∈ r → ∀ c, IsCell ι c cell →
                  G.at c = (q'.2.getD column []).getD row 0) := by
  obtain ⟨bad, h1, h2⟩ := accepted_circuit hc ht ht' hpr he hconf hdelta hT hm hkeys instances hplan
    hcirc
  refine ⟨bad, h1, fun rep hrep hash st st' hv => ?_⟩
  obtain ⟨inst, advice, st₁, gd, m, l, g1, g2, g3, g4, g5, g6, g7⟩ := h2 rep hrep hash st st' hv
  refine ⟨inst, advice, st₁, gd, m, l, g1, g2, g3, g4, g5, g6, fun hav => ?_⟩
  rcases g7 hav with g8 | g8 | g8
  · exact .inl g8
  · exact .inr (.inl g8)
  · refine .inr (.inr fun q' hq => ?_)
    obtain ⟨G, hG, hs, hl, hi⟩ := g8 q' hq
    exact ⟨G, hG, EccApi.circuit_sound hcv hf hb hmul hrun hs
      (hl _ (List.mem_singleton.2 rfl)), hi⟩

/-- **C81**, completeness for the elliptic curve API: for a circuit made of any calls of the gadget
whose operands are in the domains of the operations, an execution is complete as
`honest_circuit` requires: what is left to check is the layout. -/
theorem ecc_execution (hcv : Curve b) (hqo : q = Mul.order)
    (hf : Fresh advices lagrangeCoeffs fixedZ rangeCheck s) {prog : List (Call b q)}
    (hb : ∀ c ∈ prog, c.BaseOk) {v : HVals b q} (h : HSteps {} prog v) :
    ∃ (e : Env C p q) (n : ℕ) (ops : List (Region.Op C S (ZMod p))),
      EccApi.run false (configure advices lagrangeCoeffs fixedZ rangeCheck s) prog {} 0
        = some (e, n, ops) ∧
      ∀ (cs : Cs (ZMod p)) (N : ℕ) (inst : List (List (ZMod p))) (rops : List (Op (ZMod p)))
        (regions : List (List (ROp (ZMod p)))) (starts : List ℕ)
        (calls : List (Owner × COp (ZMod p))), Planned constants regions starts calls →
        (∀ t : Cols (ZMod p), t.fixed = fixedCells cs N rops →
          Layout.Circuit ι σ
            (EccApi.gates b (configure advices lagrangeCoeffs fixedZ rangeCheck s))
            [LookupRange.lookup 10 rangeCheck] ops regions starts calls tables rops cs N t) →
        Assigns calls rops →
        (∀ blind, ∀ (i : ℕ) r, regions[i]? = some r → ∀ cell column row,
          ROp.inst cell column row ∈ r → ∃ c, IsCell ι c cell ∧
            (gridOf ι starts N (assignment (N - (cs.blindingFactors + 1)) inst rops blind)).at c =
              (inst.getD column []).getD row 0) →
        Execution ι σ (EccApi.gates b (configure advices lagrangeCoeffs fixedZ rangeCheck s))
          [LookupRange.lookup 10 rangeCheck] tables constants cs N inst rops ops regions starts
          calls := by
  obtain ⟨e, n, ops, h1, h2, h3⟩ := EccApi.circuit_complete hcv hqo hf false hb h
  refine ⟨e, n, ops, h1, fun cs N inst rops regions starts calls hp hc ha hi =>
    ⟨hp, hc, ha, h2, fun G hG => ⟨(h3 G hG).1, fun l hl => ?_⟩, hi⟩⟩
  rw [List.mem_singleton.1 hl]
  exact (h3 G hG).2.1

end Verif.EndToEnd
