import Verif.Link.Sound
import Verif.Sound.ProtocolExample

/-!
# A circuit for C54 and C55: a gate under a simple selector, a lookup, and a copy to the instance
-/

namespace Verif.Link

open Verif.Cs (Column Kind Cs Lookup Reach)
open Verif.Domain (Domain new)
open Verif.Expr
open Verif.Rows
open Verif.Plonk Verif.Protocol Verif.Toy Verif.Msm Verif.Transcript
open Verif.Sound (toyEnc toyHash)

attribute [local instance 2000] LinearOrder.toDecidableEq

/-- A table column, an advice column, an instance column, a selector. -/
def linkCs₀ : Cs G := ((({} : Cs G).fixedColumn.2.adviceColumn.2.instanceColumn.2).selector true).2

/-- The gate `s (a - 3)` and the lookup of `a` in the table. -/
def linkCs : Cs G :=
  { linkCs₀ with
    numAdviceQueries := [1]
    adviceQueries := [(0, 0)]
    instanceQueries := [(0, 0)]
    fixedQueries := [(0, 0)]
    permutation := [⟨.advice, 0⟩, ⟨.inst, 0⟩]
    gates := [[.product (.selector ⟨0, true⟩)
      (.sum (.advice ⟨0, 0, 0⟩) (.negated (.constant 3)))]]
    lookups := [⟨[.advice ⟨0, 0, 0⟩], [.fixed ⟨0, 0, 0⟩]⟩] }

theorem linkReach : Reach linkCs := by
  have h1 : Reach linkCs₀ := .selector true (.instanceColumn (.adviceColumn (.fixedColumn .init)))
  have h2 := Reach.queryAdvice (c := 0) (r := 0) h1 rfl
  have h3 := Reach.enableEquality (c := ⟨.advice, 0⟩) h2 rfl
  have h4 := Reach.enableEquality (c := ⟨.inst, 0⟩) h3 rfl
  have h5 := Reach.createGate (polys := [.product (.selector ⟨0, true⟩)
      (.sum (.advice ⟨0, 0, 0⟩) (.negated (.constant 3)))]) h4
    (by intro e he; rw [List.mem_singleton] at he; subst he
        exact ⟨Nat.one_pos, rfl, trivial⟩) rfl
  exact Reach.lookup (m := [(.advice ⟨0, 0, 0⟩, 0)]) h5
    (by intro e he; rw [List.mem_singleton] at he; subst he; rfl) rfl

theorem linkConfigured : Configured linkCs (2 ^ 3) fun _ => true where
  reach := linkReach
  built := by
    intro g hg e he
    have hg' := List.mem_singleton.1 hg
    subst hg'
    have he' := List.mem_singleton.1 he
    subst he'
    exact .mul (.selector ⟨0, true⟩) (.add (.advice ⟨0, 0, 0⟩) (.neg (.constant 3)) rfl)
      (by decide +kernel)
  fixed := by decide
  inst := by decide
  adviceRot := by decide
  instRot := by decide
  flagG := by
    intro g hg e he
    have hg' := List.mem_singleton.1 hg
    subst hg'
    have he' := List.mem_singleton.1 he
    subst he'
    decide
  flagL := by
    intro l hl e he
    have hl' := List.mem_singleton.1 hl
    subst hl'
    have he' := List.mem_singleton.1 he
    subst he'
    decide
  char := by
    have : linkCs.degree = 4 := by decide +kernel
    rw [this]
    intro i h1 h2
    interval_cases i <;> decide

/-- On 8 rows two are usable: `a = 3` on the first, equal to the instance and in the table. -/
def linkOps (v : Option G) : List (Op G) :=
  [.enter, .selector ⟨0, true⟩ 0, .advice 0 0 (v.map .trivial), .exit,
    .fixed 0 0 (some (.trivial 3)), .copy ⟨.advice, 0⟩ 0 ⟨.inst, 0⟩ 0]

def linkInfos : List Mock.GateInfo := [⟨[⟨0, true⟩], [(⟨.advice, 0⟩, 0)]⟩]

/-- The mock prover accepts. -/
theorem link_mock : mock linkCs (2 ^ 3) linkInfos [[3]] (linkOps (some 3)) = some (.ok ()) := by
  decide +kernel

/-- No denominator vanishes at the challenges of this run. -/
def linkNonzero (d : Domain G) (cs : Cs G) (fv : List (List G)) (w : Circuit G) : Bool :=
  decide ((∀ c ∈ Verif.Permutation.usable cs.permutation d.n cs.blindingFactors,
    Verif.Permutation.cellVal (colValues fv w) c
      + 26 * Verif.Permutation.cellId d.omega 35 c + 19 ≠ 0) ∧
  ∀ l ∈ cs.lookups, ∀ i < d.n - (cs.blindingFactors + 1),
    Verif.Lookup.inputVal l d.n 7 (cols fv w) i + 26 ≠ 0 ∧
      Verif.Lookup.tableVal l d.n 7 (cols fv w) i + 19 ≠ 0)

/-- The columns the prover works with in this run: the advice with its blinding rows, the padded
instance. -/
def linkWitness : Circuit G := ⟨[[3, 0, 0, 1, 0, 1, 0, 1]], [[3, 0, 0, 0, 0, 0, 0, 0]]⟩

/-- Keys, proof and challenges; keys are generated without a witness. -/
def linkRun : Option (List G × List (List G) × ℕ × Bool) :=
  (Commitment.Params.new 2 consts97 exHash 3).bind fun pr =>
  (keygen 2 consts97 pr 35 2 linkCs (linkOps none)).bind fun keys =>
  (adviceOf keys.cs (2 ^ 3) [[3]] (linkOps (some 3))).bind fun a =>
  (createProof 2 toyEnc pr keys.domain keys.cs 35 2 exRng keys.pk [a] [[[3]]]
    W.init).toOption.map fun r => (r.2.trace.reverse, a, keys.cs.blindingFactors,
      linkNonzero keys.domain keys.cs keys.pk.fixedValues linkWitness)

theorem linkRun_eq : linkRun = some ([7, 26, 19, 14, 72, 63, 26, 50, 61, 82, 57, 42, 94, 28],
    [[3, 0, 0, 0, 0, 0, 0, 0]], 5, true) := by
  decide +kernel

/-- The hypotheses of C54 hold for this run: the mock prover accepts the circuit, a proof is made from
the same synthesis, and so it is accepted. -/
theorem linkRun_verifies : ∃ (pr : Params G) (keys : Keys G G) (a : List (List G)) (st' : WState G),
    Commitment.Params.new 2 consts97 exHash 3 = some pr ∧
    keygen 2 consts97 pr 35 2 linkCs (linkOps none) = some keys ∧
    adviceOf keys.cs (2 ^ 3) [[3]] (linkOps (some 3)) = some a ∧
    createProof 2 toyEnc pr keys.domain keys.cs 35 2 exRng keys.pk [a] [[[3]]] W.init
      = .ok ((), st') ∧
    ∀ rest, verifySingle toyEnc pr keys.domain keys.cs 35 keys.vk [[[3]]] (R.init (st'.out ++ rest))
      = .ok ((), ⟨st'.absorbed, rest, st'.trace⟩) := by
  have h := linkRun_eq
  unfold linkRun at h
  obtain ⟨pr, hpr, h⟩ := Option.bind_eq_some_iff.1 h
  obtain ⟨keys, hkeys, h⟩ := Option.bind_eq_some_iff.1 h
  obtain ⟨a, ha, h⟩ := Option.bind_eq_some_iff.1 h
  obtain ⟨⟨_, st'⟩, hst, htr⟩ := Option.map_eq_some_iff.1 h
  have hst : createProof 2 toyEnc pr keys.domain keys.cs 35 2 exRng keys.pk [a] [[[3]]] W.init
      = .ok ((), st') := by
    rcases hc : createProof 2 toyEnc pr keys.domain keys.cs 35 2 exRng keys.pk [a] [[[3]]] W.init
      with err | ⟨u, s⟩
    · rw [hc] at hst; cases hst
    · rw [hc] at hst; cases hst; rfl
  simp only [Prod.mk.injEq] at htr
  obtain ⟨htr, rfl, hbf, hnz⟩ := htr
  refine ⟨pr, keys, _, st', hpr, hkeys, ha, hst, fun rest => ?_⟩
  obtain ⟨fv, perm, hd, hdn, -⟩ := keygen_spec consts97_valid (by decide) (by decide) hpr
    linkConfigured hkeys
  have hwit : witness keys.domain.n keys.cs.blindingFactors exRng [[[3, 0, 0, 0, 0, 0, 0, 0]]] [[[3]]]
      = [linkWitness] := by
    rw [hdn, hbf]; rfl
  refine mock_accepted_verifies (K := G) consts97_valid (by decide) (by decide) hpr (enc_valid _ _)
    linkConfigured (by decide) hkeys [([[3]], linkOps (some 3))] _
    (.cons ⟨rfl, ⟨linkInfos, link_mock⟩, ha⟩ .nil) exRng st' hst ?_ rest
  rw [show ([([[3]], linkOps (some 3))] : List (List (List G) × List (Op G))).map Prod.fst = [[[3]]]
    from rfl, hwit, htr]
  have hnz := of_decide_eq_true hnz
  constructor
  · rintro _ _ _ _ _ ⟨⟩ w hw'
    rw [List.mem_singleton] at hw'
    subst hw'
    exact ⟨hnz.1, hnz.2⟩
  · rintro _ _ _ _ _ _ ⟨⟩
    rw [hdn]; decide +kernel
  · rintro _ _ _ _ _ _ _ _ _ ⟨⟩
    rw [hdn]; decide +kernel

/-- The hypotheses of C55 hold for this circuit and this proof: keys as generated, a prover who
represents points over the first generator, and an accepted run. -/
example : ∃ (pr : Params G) (keys : Keys G G) (rep : G → Verif.Sound.Comb G) (st st' : RState G),
    Commitment.Params.new 2 consts97 exHash 3 = some pr ∧ toyEnc.Valid ∧
    Configured linkCs (2 ^ 3) (fun _ => true) ∧ IsPrimitiveRoot (35 : G) 3 ∧
    Nat.Coprime (2 ^ 3) 3 ∧ linkCs.permutation.length ≤ 3 ∧
    keygen 2 consts97 pr 35 2 linkCs (linkOps none) = some keys ∧ Verif.Sound.Algebraic pr rep ∧
    verifySingle (Verif.Sound.withHash toyEnc toyHash) pr keys.domain keys.cs 35 keys.vk [[[3]]] st
      = .ok ((), st') := by
  obtain ⟨pr, keys, a, ws, hpr, hkeys, -, -, hv⟩ := linkRun_verifies
  have hg : ((Commitment.Params.new 2 consts97 exHash 3).map fun pr =>
      (pr.n, decide (pr.g.getD 0 0 = 0))) = some (8, false) := by decide +kernel
  rw [hpr] at hg
  simp only [Option.map_some, Option.some.injEq, Prod.mk.injEq, decide_eq_false_iff_not] at hg
  exact ⟨pr, keys, Verif.Sound.repOver (pr.g.getD 0 0), _, _, hpr, enc_valid _ _, linkConfigured,
    consts97_valid.zeta, by decide, by decide, hkeys,
    Verif.Sound.repOver_algebraic (by rw [hg.1]; decide) rfl hg.2, hv []⟩

end Verif.Link
