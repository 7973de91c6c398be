import Verif.Sound.Multiopen
import Verif.Toy.Props

/-!
# A forged opening

In a group with known discrete logarithms every value can be opened.  The hypotheses of C51 and C52
hold and their conclusion is a relation.
-/

namespace Verif.Sound

open Verif.Msm Verif.PolyArith Verif.Transcript Verif.Ipa Verif.Toy Verif.Multiopen Polynomial

/-- Two generators `1`, `3`, with `w = 7`, `u = 5`, in the group with 97 elements. -/
def toyParams : Params G := ⟨1, 2, [1, 3], [1, 3], 7, 5⟩

theorem toyParams_ok : ParamsOk toyParams := ⟨rfl, rfl⟩

/-- Every point represented over the first generator. -/
noncomputable def toyRep (p : G) : Comb G := (C p, 0, 0)

theorem toyRep_algebraic : Algebraic toyParams toyRep where
  point_eq p := by
    simp [point, toyRep, toyParams, Finset.sum_range_succ, coeff_C]
  degree p := lt_of_le_of_lt degree_C_le (by simp [toyParams])
  neg p := by simp [toyRep]
  zero := by simp [toyRep]

def toyHash : Hash G := ⟨sumHash, uniform⟩

def toyEnc : Enc G G G := enc sumHash uniform

/-- The commitment `4`, standing for the constant polynomial 4. -/
def toyMsm : MSM G G := { (MSM.new : MSM G G) with other := [(16, 1, 4)] }

theorem toyMsm_reps : Reps toyEnc.toCoords toyParams toyRep toyMsm (C 4, 0, 0) where
  curve := by
    intro e he
    simp only [toyMsm, List.mem_singleton] at he
    subst he
    exact ⟨4, by decide⟩
  len := by simp [toyMsm, MSM.new]
  val := by
    simp [relOf, otherRep, toyMsm, MSM.new, toyEnc, enc, coords, toyRep]

/-- The verifier accepts a proof that the constant polynomial 4 takes the value 5 at 3. -/
def forged : Bytes := Toy.repr 9 ++ Toy.repr 10 ++ Toy.repr 11 ++ Toy.repr 2 ++ Toy.repr 47

def accepts (r : Except Err (Guard G G × RState G)) : Bool :=
  match r with
  | .ok (gd, _) => ((gd.useChallenges toyParams).bind fun m => m.eval toyEnc.toCoords toyParams)
      = some true
  | .error _ => false

theorem forged_accepted :
    accepts (Ipa.verifyProof toyEnc toyParams toyMsm 3 5 ⟨[], forged, []⟩) = true := by
  decide +kernel

/-- The hypotheses of `opening_sound` hold, with an accepting run. -/
example : (C 4 : G[X]).eval 3 ≠ 5 ∧ Algebraic toyParams toyRep ∧
    Reps toyEnc.toCoords toyParams toyRep toyMsm (C 4, 0, 0) ∧
    ∃ gd st' m, Ipa.verifyProof (withHash toyEnc toyHash) toyParams toyMsm 3 5 ⟨[], forged, []⟩
      = .ok (gd, st') ∧ gd.useChallenges toyParams = some m ∧
      m.eval toyEnc.toCoords toyParams = some true := by
  refine ⟨by rw [eval_C]; decide, toyRep_algebraic, toyMsm_reps, ?_⟩
  have h := forged_accepted
  unfold accepts at h
  rcases hv : Ipa.verifyProof toyEnc toyParams toyMsm 3 5 ⟨[], forged, []⟩ with err | ⟨gd, st'⟩
  · rw [hv] at h; cases h
  · rw [hv] at h
    dsimp only at h
    obtain ⟨m, h1, h2⟩ := Option.bind_eq_some_iff.1 (of_decide_eq_true h)
    exact ⟨gd, st', m, hv, h1, h2⟩

/-- The first of these two claims on the constant polynomial 4 is wrong. -/
def toyQueries : List (Query G (Fin 1) G) := [⟨3, 0, 5⟩, ⟨2, 0, 4⟩]

def toyMem : Fin 1 → Commitment G G G := fun _ => .msm toyMsm

def forgedMulti : Bytes := Toy.repr 8 ++ Toy.repr 12 ++ Toy.repr 9 ++ Toy.repr 10 ++ Toy.repr 11
  ++ Toy.repr 2 ++ Toy.repr 57

theorem forgedMulti_accepted : accepts
    (Multiopen.verifyProof toyEnc toyParams toyMem toyQueries MSM.new ⟨[], forgedMulti, []⟩)
      = true := by
  decide +kernel

/-- The hypotheses of `multiopen_sound` hold, with an accepting run. -/
example : (∀ q ∈ toyQueries, ((C 4, 0, 0) : Comb G).1.degree < toyParams.n) ∧
    (∃ q ∈ toyQueries, ((C 4, 0, 0) : Comb G).1.eval q.point ≠ q.eval) ∧
    Algebraic toyParams toyRep ∧
    (∀ q ∈ toyQueries, Represents toyEnc.toCoords toyParams toyRep (toyMem q.commitment)
      (C 4, 0, 0)) ∧
    ∃ gd st' m, Multiopen.verifyProof (withHash toyEnc toyHash) toyParams toyMem toyQueries MSM.new
        ⟨[], forgedMulti, []⟩ = .ok (gd, st') ∧ gd.useChallenges toyParams = some m ∧
      m.eval toyEnc.toCoords toyParams = some true := by
  refine ⟨fun _ _ => lt_of_le_of_lt degree_C_le (by simp [toyParams]),
    ⟨_, List.mem_cons_self .., by dsimp only; rw [eval_C]; decide⟩, toyRep_algebraic,
    fun _ _ => toyMsm_reps, ?_⟩
  have h := forgedMulti_accepted
  unfold accepts at h
  rcases hv : Multiopen.verifyProof toyEnc toyParams toyMem toyQueries MSM.new
    ⟨[], forgedMulti, []⟩ with err | ⟨gd, st'⟩
  · rw [hv] at h; cases h
  · rw [hv] at h
    dsimp only at h
    obtain ⟨m, h1, h2⟩ := Option.bind_eq_some_iff.1 (of_decide_eq_true h)
    exact ⟨gd, st', m, hv, h1, h2⟩

end Verif.Sound
