import Verif.Sound.Protocol
import Verif.Sound.Example

/-!
# An accepted proof of a false statement

With a field of 97 elements and known discrete logarithms, false proofs can be found by trying
seeds.  The hypotheses of C53 hold for such a run: one of its challenges is bad or it yields a
relation.
-/

namespace Verif.Sound

open Verif.Cs (Cs)
open Verif.Domain (Domain new)
open Verif.Msm Verif.PolyArith Verif.Transcript Verif.Protocol Verif.Toy Verif.Plonk Polynomial

/-- Every point represented over the first generator `g`. -/
noncomputable def repOver (g : G) (p : G) : Comb G := (C (p * g⁻¹), 0, 0)

theorem repOver_algebraic {pr : Params G} {g : G} (hn : 0 < pr.n) (hg : pr.g.getD 0 0 = g)
    (h0 : g ≠ 0) : Algebraic pr (repOver g) where
  point_eq p := by
    simp only [point, repOver, zero_smul, add_zero]
    rw [Finset.sum_eq_single 0]
    · rw [hg, coeff_C_zero, smul_eq_mul, mul_assoc, inv_mul_cancel₀ h0, mul_one]
    · intro b _ hb
      rw [coeff_C_ne_zero hb, zero_smul]
    · intro h
      exact absurd (Finset.mem_range.2 hn) h
  degree p := lt_of_le_of_lt degree_C_le (by simpa using hn)
  neg p := by simp [repOver]
  zero := by simp [repOver]

/-- The advice column has the value 2 on a row where the gate wants a bit. -/
def forgedRng : Rng G :=
  { exRng with adviceRows := fun _ _ r => if r = 2 then 2 else ((r % 2 : ℕ) : G), randomBlind := 53 }

/-- Keys, the forged proof, the answer of the verifier, and the first generator. -/
def forgedRun : Option (Bool × G) :=
  (new consts97 4 3).bind fun d =>
  (Commitment.Params.new 2 consts97 exHash 3).bind fun pr =>
  (keygenPk 2 d 5 exFixed (permsOf d exCs 35 exCalls)).bind fun pk =>
  (keygenVk pr 2 exFixed (permsOf d exCs 35 exCalls)).bind fun vk =>
  (createProof 2 toyEnc pr d exCs 35 2 forgedRng pk [[[1, 1, 0, 0, 0, 0, 0, 0]]] [[]]
    W.init).toOption.map fun r =>
      ((verifySingle toyEnc pr d exCs 35 vk [[]] (R.init r.2.out)).toOption.isSome, pr.g.getD 0 0)

theorem forgedRun_eq : forgedRun.map (fun r => (r.1, decide (r.2 = 0))) = some (true, false) := by
  decide +kernel

/-- The hypotheses of `proof_sound` hold and there is an accepted run, of a proof whose advice
column violates the gate. -/
example : ∃ (d : Domain G) (pr : Params G) (pk : Pk G) (vk : Vk G G) (rep : G → Comb G)
    (st st' : RState G),
    toyEnc.Valid ∧ Setup 2 pr d ∧ exCs.degree ≤ d.quotientPolyDegree + 1 ∧ Ready exCs d.n ∧
    exCs.blindingFactors + 1 < d.n ∧ IsPrimitiveRoot (35 : G) 3 ∧ Nat.Coprime d.n 3 ∧
    keygenPk 2 d exCs.blindingFactors exFixed (permsOf d exCs 35 exCalls) = some pk ∧
    keygenVk pr 2 exFixed (permsOf d exCs 35 exCalls) = some vk ∧ Algebraic pr rep ∧
    verifySingle (withHash toyEnc toyHash) pr d exCs 35 vk [[]] st = .ok ((), st') ∧
    Violates d exCs exFixed exCalls
      ⟨blindCircuit d.n exCs.blindingFactors forgedRng.adviceRows 0 [[1, 1, 0, 0, 0, 0, 0, 0]], []⟩ := by
  have h := forgedRun_eq
  unfold forgedRun at h
  obtain ⟨⟨b, g⟩, h, hbg⟩ := Option.map_eq_some_iff.1 h
  simp only [Prod.mk.injEq, decide_eq_false_iff_not] at hbg
  obtain ⟨rfl, hg0⟩ := hbg
  obtain ⟨d, hd, h⟩ := Option.bind_eq_some_iff.1 h
  obtain ⟨pr, hpr, h⟩ := Option.bind_eq_some_iff.1 h
  obtain ⟨pk, hpk, h⟩ := Option.bind_eq_some_iff.1 h
  obtain ⟨vk, hvk, h⟩ := Option.bind_eq_some_iff.1 h
  obtain ⟨⟨_, ws⟩, -, h⟩ := Option.map_eq_some_iff.1 h
  obtain ⟨hacc, hg⟩ := Prod.mk.injEq _ _ _ _ ▸ h
  obtain ⟨hs, -⟩ := setup_of_new (threads := 2) (threads' := 2) (by decide) (by decide)
    consts97_valid hd hpr
  obtain ⟨h1, -⟩ := Verif.Domain.new_spec consts97 consts97_valid 4 3
  obtain ⟨hv, hk, hq, _, -⟩ := h1 d hd
  have hn : d.n = 8 := by rw [hv.n_eq, hk]; rfl
  have hq' : d.quotientPolyDegree = 3 := by omega
  obtain ⟨⟨u, st'⟩, hst⟩ := Option.isSome_iff_exists.1 hacc
  refine ⟨d, pr, pk, vk, repOver g, R.init ws.out, st', enc_valid _ _, hs, by rw [ex_degree, hq'], hn ▸ exReady,
    by rw [ex_bf, hn]; decide, consts97_valid.zeta, by rw [hn]; decide, by rw [ex_bf]; exact hpk,
    hvk, repOver_algebraic (by rw [hs.n_eq, hn]; decide) hg hg0, ?_, ?_⟩
  · rcases hr : verifySingle toyEnc pr d exCs 35 vk [[]] (R.init ws.out) with err | ⟨u, s⟩
    · rw [hr] at hst; cases hst
    · rw [hr] at hst; cases hst; exact hr
  · left
    refine ⟨4, by rw [hn]; decide, _, List.mem_singleton.2 rfl, ?_⟩
    rw [hn, ex_bf]
    decide +kernel

end Verif.Sound
