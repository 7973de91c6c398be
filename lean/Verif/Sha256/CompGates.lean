import Verif.Sha256.CompSat

/-!
# The gates of a round are satisfied for any sequence of working variables
-/

namespace Verif.Sha256

open Verif.Region Col

variable {F : Type} [Field F] {r0 rs rc : ℕ} {A E W : ℕ → ℕ}

attribute [local irreducible] table

theorem pow32_ne (hF : Big F) : (2 : F) ^ 32 ≠ 0 := by
  have := hF (2 ^ 32) (by norm_num) (by norm_num)
  rwa [Nat.cast_pow, Nat.cast_ofNat] at this

theorem slice_word {x : ℕ} (hx : x < 2 ^ 32) : slice x 0 16 + 2 ^ 16 * slice x 16 32 = x := by
  simp only [slice, Nat.reducePow, Nat.reduceSub] at *; omega

theorem CP.gate {s : Sel} {f : (Col → ℤ → F) → List F} {z : ℤ} {reg : ℕ} (i : ℕ)
    (hi : (gates : Gates Col Sel F)[i]? = some (s, f))
    (h : ∀ (G : Grid Col F) (A' E' W' : ℕ → ℕ), Bd A' → Bd E' → Bd W' →
      World G r0 rs rc A' E' W' → ∀ p ∈ f (fun c rot => G reg c (z + rot)), p = 0) :
    CP (F := F) r0 rs rc A E W (.enable s reg z) :=
  ⟨fun G A' E' W' hA hE hW hG => satOp_enable i hi (h G A' E' W' hA hE hW hG), fun _ _ => trivial⟩

theorem Rnd.hPrime_ok (x : Rnd) :
    ∀ p ∈ gHPrime ((slice x.hp.1 0 16 : ℕ) : F) ((slice x.hp.1 16 32 : ℕ) : F) ((x.hp.2 : ℕ) : F)
      ((evLo (rS1 x.e) : ℕ) : F) ((evHi (rS1 x.e) : ℕ) : F) ((odLo x.rCh : ℕ) : F)
      ((odHi x.rCh : ℕ) : F) ((odLo x.rCn : ℕ) : F) ((odHi x.rCn : ℕ) : F)
      ((slice x.h 0 16 : ℕ) : F) ((slice x.h 16 32 : ℕ) : F) ((slice x.k 0 16 : ℕ) : F)
      ((slice x.k 16 32 : ℕ) : F) ((x.w % 2 ^ 16 : ℕ) : F) ((x.w / 2 ^ 16 % 2 ^ 16 : ℕ) : F),
      p = 0 := by
  have h1 : x.hp.1 < 2 ^ 32 := Nat.mod_lt _ (by norm_num)
  have h2 := slice_word h1
  have h3 : (slice x.hp.1 0 16 + 2 ^ 16 * slice x.hp.1 16 32) + 2 ^ 32 * x.hp.2 =
      (slice x.h 0 16 + (odLo x.rCh + (odLo x.rCn + (evLo (rS1 x.e) + (slice x.k 0 16 +
        (x.w % 2 ^ 16)))))) + 2 ^ 16 * (slice x.h 16 32 + (odHi x.rCh + (odHi x.rCn +
        (evHi (rS1 x.e) + (slice x.k 16 32 + (x.w / 2 ^ 16 % 2 ^ 16)))))) := by
    rw [h2]
    unfold Rnd.hp sumWithCarry
    simp only [List.map_cons, List.map_nil, List.sum_cons, List.sum_nil, Nat.add_zero]
    exact Nat.mod_add_div _ _
  have h4 := congrArg (Nat.cast (R := F)) h3
  simp only [gHPrime, List.mem_cons, List.not_mem_nil, or_false, forall_eq]
  rw [Nat.cast_add, Nat.cast_add, Nat.cast_mul, Nat.cast_mul] at h4
  generalize x.w % 2 ^ 16 = w0 at h4 ⊢
  generalize x.w / 2 ^ 16 % 2 ^ 16 = w1 at h4 ⊢
  push_cast at h4
  linear_combination -h4

theorem Rnd.eNew_ok (hF : Big F) (x : Rnd) :
    ∀ p ∈ gENew ((slice x.e' 0 16 : ℕ) : F) ((slice x.e' 16 32 : ℕ) : F) (x.carryE : F)
      ((slice x.d 0 16 : ℕ) : F) ((slice x.d 16 32 : ℕ) : F) ((slice x.hp.1 0 16 : ℕ) : F)
      ((slice x.hp.1 16 32 : ℕ) : F), p = 0 := by
  have := pow32_ne hF
  simp only [gENew, List.mem_cons, List.not_mem_nil, or_false, forall_eq, Rnd.carryE]
  rw [div_mul_cancel₀ _ this]
  ring

theorem Rnd.aNew_ok (hF : Big F) (x : Rnd) :
    ∀ p ∈ gANew ((slice x.a' 0 16 : ℕ) : F) ((slice x.a' 16 32 : ℕ) : F) (x.carryA : F)
      ((evLo (rS0 x.a) : ℕ) : F) ((evHi (rS0 x.a) : ℕ) : F) ((odLo x.rMj : ℕ) : F)
      ((odHi x.rMj : ℕ) : F) ((slice x.hp.1 0 16 : ℕ) : F) ((slice x.hp.1 16 32 : ℕ) : F),
      p = 0 := by
  have := pow32_ne hF
  simp only [gANew, List.mem_cons, List.not_mem_nil, or_false, forall_eq, Rnd.carryA]
  rw [div_mul_cancel₀ _ this]
  ring

/-- The carries of the honest words. -/
theorem Rnd.carryE_eq (hF : Big F) (x : Rnd) (h : x.e' = x.eN.1) : (x.carryE : F) = (x.eN.2 : ℕ) := by
  have h1 : x.e' < 2 ^ 32 := by rw [h]; exact Nat.mod_lt _ (by norm_num)
  have h2 := slice_word h1
  have h3 : (slice x.e' 0 16 + 2 ^ 16 * slice x.e' 16 32) + 2 ^ 32 * x.eN.2 =
      (slice x.hp.1 0 16 + slice x.d 0 16) + 2 ^ 16 * (slice x.hp.1 16 32 + slice x.d 16 32) := by
    rw [h2, h]
    unfold Rnd.eN sumWithCarry
    simp only [List.map_cons, List.map_nil, List.sum_cons, List.sum_nil, Nat.add_zero]
    exact Nat.mod_add_div _ _
  have h4 := congrArg (Nat.cast (R := F)) h3
  push_cast at h4
  unfold Rnd.carryE
  rw [div_eq_iff (pow32_ne hF)]
  linear_combination -h4

theorem Rnd.carryA_eq (hF : Big F) (x : Rnd) (h : x.a' = x.aN.1) : (x.carryA : F) = (x.aN.2 : ℕ) := by
  have h1 : x.a' < 2 ^ 32 := by rw [h]; exact Nat.mod_lt _ (by norm_num)
  have h2 := slice_word h1
  have h3 : (slice x.a' 0 16 + 2 ^ 16 * slice x.a' 16 32) + 2 ^ 32 * x.aN.2 =
      (slice x.hp.1 0 16 + (evLo (rS0 x.a) + odLo x.rMj)) +
        2 ^ 16 * (slice x.hp.1 16 32 + (evHi (rS0 x.a) + odHi x.rMj)) := by
    rw [h2, h]
    unfold Rnd.aN sumWithCarry
    simp only [List.map_cons, List.map_nil, List.sum_cons, List.sum_nil, Nat.add_zero]
    exact Nat.mod_add_div _ _
  have h4 := congrArg (Nat.cast (R := F)) h3
  push_cast at h4
  unfold Rnd.carryA
  rw [div_eq_iff (pow32_ne hF)]
  linear_combination -h4

section

attribute [local irreducible] spreadBits evenBits oddBits slice getTag rS0 rS1 evLo evHi odLo odHi
  negateSpread sumWithCarry

/-- The cells around a row of a round. -/
theorem atRow {G : Grid Col F} (h : World G r0 rs rc A E W) {i m : ℕ} (hi : i < 64)
    (hm : 1 ≤ m) (hm' : m < 23) (c : Col) :
    G rc c (((24 * i + m : ℕ) : ℤ) + -1) = (rnd A E W i).cells (m - 1) c ∧
    G rc c (((24 * i + m : ℕ) : ℤ) + 0) = (rnd A E W i).cells m c ∧
    G rc c (((24 * i + m : ℕ) : ℤ) + 1) = (rnd A E W i).cells (m + 1) c := by
  rw [h.comp]
  exact ⟨atC A E W c hi (by omega) (by omega), atC A E W c hi (by omega) (by omega),
    atC A E W c hi (by omega) (by omega)⟩

/-- Turn a gate of a round into a statement on the numbers of the round. -/
macro "round_gate" m:term:max hi:term:max hG:ident : tactic => `(tactic|
  (have e0 (c : Col) := (atRow $hG $hi (m := $m) (by norm_num) (by norm_num) c).1
   have e1 (c : Col) := (atRow $hG $hi (m := $m) (by norm_num) (by norm_num) c).2.1
   have e2 (c : Col) := (atRow $hG $hi (m := $m) (by norm_num) (by norm_num) c).2.2
   dsimp only
   simp only [e0, e1, e2, Rnd.cells, reduceCtorEq, false_and, true_and, if_false, Nat.reduceSub,
     Nat.reduceAdd, Nat.reduceEqDiff, if_true]))

theorem roundGates (hF : Big F) {i : ℕ} (hi : i < 64) : RoundGates F r0 rs rc A E W i where
  us0 := by
    refine CP.gate 11 rfl fun G A' E' W' hA hE hW hG => ?_
    round_gate 17 hi hG
    have := us0_ok (F := F) (A' (i + 3))
    rw [rA_eq _ (hA _)] at this
    exact this
  us1 := by
    refine CP.gate 12 rfl fun G A' E' W' hA hE hW hG => ?_
    round_gate 3 hi hG
    have := us1_ok (F := F) (E' (i + 3))
    rw [rE_eq _ (hE _)] at this
    exact this
  ch := by
    refine CP.gate 13 rfl fun G A' E' W' hA hE hW hG => ?_
    round_gate 7 hi hG
    exact ch_ok (F := F) (E' (i + 3)) (E' (i + 2)) _ rfl
  chNeg := by
    refine CP.gate 14 rfl fun G A' E' W' hA hE hW hG => ?_
    round_gate 11 hi hG
    exact chNeg_ok (F := F) (E' (i + 3)) (E' (i + 1)) _ rfl
  maj := by
    refine CP.gate 15 rfl fun G A' E' W' hA hE hW hG => ?_
    round_gate 21 hi hG
    exact maj_ok (F := F) (A' (i + 3)) (A' (i + 2)) (A' (i + 1)) _ rfl
  hPrime := by
    refine CP.gate 16 rfl fun G A' E' W' hA hE hW hG => ?_
    round_gate 7 hi hG
    exact (rnd A' E' W' i).hPrime_ok
  eNew := by
    refine CP.gate 18 rfl fun G A' E' W' hA hE hW hG => ?_
    round_gate 9 hi hG
    exact (rnd A' E' W' i).eNew_ok hF
  aNew := by
    refine CP.gate 17 rfl fun G A' E' W' hA hE hW hG => ?_
    round_gate 21 hi hG
    exact (rnd A' E' W' i).aNew_ok hF

theorem abcd_cp (hF : Big F) {j : ℕ} (hj : j ≤ 66) :
    CP (F := F) r0 rs rc A E W (.enable .abcd (aReg r0 rc j) (aRow j : ℕ)) := by
  refine CP.gate 9 rfl fun G A' E' W' hA hE hW hG => ?_
  have e1 (c : Col) : G (aReg r0 rc j) c (((aRow j : ℕ) : ℤ) + 0) = _ :=
    holdsA hj (k := 0) (c := c) (by norm_num) (by omega) G A' E' W' hG
  have e2 (c : Col) : G (aReg r0 rc j) c (((aRow j : ℕ) : ℤ) + 1) = _ :=
    holdsA hj (k := 1) (c := c) (by norm_num) (by omega) G A' E' W' hG
  dsimp only
  simp only [e1, e2]
  exact abcd_ok hF (A' j)

theorem efgh_cp (hF : Big F) {j : ℕ} (hj : j ≤ 66) :
    CP (F := F) r0 rs rc A E W (.enable .efgh (aReg r0 rc j) (eRow j : ℕ)) := by
  refine CP.gate 10 rfl fun G A' E' W' hA hE hW hG => ?_
  have e1 (c : Col) : G (aReg r0 rc j) c (((eRow j : ℕ) : ℤ) + 0) = _ :=
    holdsE hj (k := 0) (c := c) (by norm_num) (by omega) G A' E' W' hG
  have e2 (c : Col) : G (aReg r0 rc j) c (((eRow j : ℕ) : ℤ) + 1) = _ :=
    holdsE hj (k := 1) (c := c) (by norm_num) (by omega) G A' E' W' hG
  dsimp only
  simp only [e1, e2]
  exact efgh_ok hF (E' j)

end

end Verif.Sha256
