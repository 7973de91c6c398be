import Verif.Domain.Lemmas
import Verif.Assigned.Props
import Mathlib.Data.ZMod.Basic
import Mathlib.Algebra.Field.ZMod

/-!
# C04, C12 (first part): evaluation domains

Specification: `toPoly` (coefficient list to polynomial) and `evalsOn`, the list of values of a
polynomial at `c·w^0, …, c·w^(m-1)`.
-/

namespace Verif.Domain

open Verif.Fft Verif.Multicore Verif.PolyArith Polynomial
open Verif.Assigned (batchInvert batchInvert_eq)

variable {F : Type*} [Field F]

/-- Specification: the constants of the field are what their names say: a root of unity of
order exactly `2^S` and a cube root of unity other than one. -/
structure Consts.Valid (c : Consts F) : Prop where
  root : IsPrimitiveRoot c.rootOfUnity (2 ^ c.S)
  zeta : IsPrimitiveRoot c.zeta 3

/-- Specification: values of a polynomial on the coset `c·⟨w⟩`. -/
noncomputable def evalsOn (c w : F) (m : ℕ) (p : F[X]) : List F :=
  (List.range m).map fun i => p.eval (c * w ^ i)

/-- Specification: a domain whose constants mean what their names say. -/
structure Domain.Valid (d : Domain F) : Prop where
  n_eq : d.n = 2 ^ d.k
  k_le : d.k ≤ d.extendedK
  ext_enough : d.n * d.quotientPolyDegree ≤ 2 ^ d.extendedK
  omega_prim : IsPrimitiveRoot d.omega (2 ^ d.k)
  ext_prim : IsPrimitiveRoot d.extendedOmega (2 ^ d.extendedK)
  omega_eq : d.omega = d.extendedOmega ^ 2 ^ (d.extendedK - d.k)
  omega_inv : d.omegaInv = d.omega⁻¹
  ext_inv : d.extendedOmegaInv = d.extendedOmega⁻¹
  coset : IsPrimitiveRoot d.gCoset 3
  coset_inv : d.gCosetInv = d.gCoset⁻¹
  n_ne : ((2 ^ d.k : ℕ) : F) ≠ 0
  ext_ne : ((2 ^ d.extendedK : ℕ) : F) ≠ 0
  ifft : d.ifftDivisor = ((2 ^ d.k : ℕ) : F)⁻¹
  ext_ifft : d.extendedIfftDivisor = ((2 ^ d.extendedK : ℕ) : F)⁻¹
  weight : d.barycentricWeight = ((2 ^ d.k : ℕ) : F)⁻¹
  t_length : d.tEvaluations.length = 2 ^ (d.extendedK - d.k)
  t_eval : ∀ i (h : i < d.tEvaluations.length),
    d.tEvaluations[i] * ((d.gCoset * d.extendedOmega ^ i) ^ d.n - 1) = 1

theorem zeta_inv {z : F} (hz : IsPrimitiveRoot z 3) : z * z = z⁻¹ := by
  have h3 := hz.pow_eq_one
  have h0 : z ≠ 0 := hz.ne_zero (by norm_num)
  field_simp
  rw [← h3]

theorem two_pow_ne_zero {w : F} {k : ℕ} (hw : IsPrimitiveRoot w (2 ^ k)) :
    ((2 ^ k : ℕ) : F) ≠ 0 := by
  cases k with
  | zero => simp
  | succ k =>
    have h2 : IsPrimitiveRoot (w ^ 2 ^ k) 2 := hw.pow (by positivity) (by rw [pow_succ])
    have hne : (2 : F) ≠ 0 := by
      intro h
      have h1 := h2.eq_neg_one_of_two_right
      have : (-1 : F) = 1 := by
        have : (1 : F) + 1 = 0 := by rw [← h]; norm_num
        exact (eq_neg_of_add_eq_zero_left this).symm
      rw [this] at h1
      have := h2.pow_eq_one_iff_dvd 1
      simp [h1] at this
    push_cast
    exact pow_ne_zero _ hne

/-- A coset point is never a domain point: `(ζ·w)^n ≠ 1` for `w` a root of unity of
power-of-two order. -/
theorem coset_pow_ne_one {z w : F} {k e : ℕ} (hz : IsPrimitiveRoot z 3) (hw : w ^ 2 ^ e = 1) :
    (z * w) ^ 2 ^ k ≠ 1 := by
  intro h
  have h1 : z ^ (2 ^ k * 2 ^ e) = 1 := by
    have := congrArg (· ^ 2 ^ e) h
    simp only [one_pow, ← pow_mul, mul_pow] at this
    rwa [mul_comm (2 ^ k) (2 ^ e), pow_mul w, hw, one_pow, mul_one, mul_comm (2 ^ e)] at this
  rw [← pow_add] at h1
  have := (hz.pow_eq_one_iff_dvd _).1 h1
  have h3 : Nat.Prime 3 := Nat.prime_three
  have := h3.dvd_of_dvd_pow this
  omega

theorem tLoop_spec [DecidableEq F] (orig step : F) (ho : orig ≠ 0) {m : ℕ} (hm : 0 < m)
    (hs : IsPrimitiveRoot step m) :
    ∀ fuel i, i + fuel = m → 0 < fuel →
      tLoop orig step fuel (orig * step ^ i) = some (tab fuel fun t => orig * step ^ (i + t)) := by
  intro fuel
  induction fuel with
  | zero => intro i _ h; omega
  | succ fuel ih =>
    intro i hi _
    rw [tLoop, tab_succ]
    have hstep : orig * step ^ i * step = orig * step ^ (i + 1) := by rw [pow_succ]; ring
    rw [hstep]
    by_cases hf : fuel = 0
    · subst hf
      have : i + 1 = m := by omega
      rw [this, hs.pow_eq_one, mul_one, if_pos rfl]
      simp [tab]
    · have hne : ¬ orig * step ^ (i + 1) = orig := by
        intro h
        have : step ^ (i + 1) = 1 := mul_left_cancel₀ ho (by rw [h, mul_one])
        have := Nat.le_of_dvd (by omega) ((hs.pow_eq_one_iff_dvd _).1 this)
        omega
      rw [if_neg hne, ih (i + 1) (by omega) (by omega)]
      simp only [Option.map_some, add_zero, Option.some.injEq, List.cons.injEq, true_and]
      apply tab_congr
      intro t _
      congr 2; ring

/-- C04: `EvaluationDomain::new(j, k)` succeeds exactly when `j ≥ 1` and the smallest
sufficient `extended_k` is at most `S`; then the domain is valid and `extended_k` is the least
exponent `≥ k` with `2^extended_k ≥ n·(j−1)`. -/
theorem new_spec [DecidableEq F] (c : Consts F) (hc : c.Valid) (j k : ℕ) :
    (∀ d, new c j k = some d → d.Valid ∧ d.k = k ∧ d.quotientPolyDegree + 1 = j ∧
      d.gCoset = c.zeta ∧
      (∀ e, k ≤ e → 2 ^ k * (j - 1) ≤ 2 ^ e → d.extendedK ≤ e)) ∧
    ((∃ d, new c j k = some d) ↔ 1 ≤ j ∧ k ≤ c.S ∧ 2 ^ k * (j - 1) ≤ 2 ^ c.S) := by
  obtain ⟨hx1, hx2, hx3⟩ := extLoop_spec (2 ^ k * (j - 1)) k
  set ek := extLoop (2 ^ k * (j - 1)) k with hek
  by_cases hj : j = 0
  · subst hj
    simp [new]
  by_cases hS : ek > c.S
  · have hn : new c j k = none := by
      simp only [new, hj, if_false, ← hek, hS, if_true]
    refine ⟨fun d hd => by simp [hn] at hd, ?_⟩
    simp only [hn]
    constructor
    · rintro ⟨d, hd⟩; simp at hd
    · rintro ⟨_, h2, h3⟩
      have := hx3 c.S h2 h3
      omega
  · have hS' : ek ≤ c.S := by omega
    set eo := squareN (c.S - ek) c.rootOfUnity with heo
    have hep : IsPrimitiveRoot eo (2 ^ ek) := by
      rw [heo, squareN_eq]
      apply hc.root.pow (by positivity)
      rw [← pow_add]; congr 1; omega
    set om := squareN (ek - k) eo with hom
    have homp : IsPrimitiveRoot om (2 ^ k) := by
      rw [hom, squareN_eq]
      apply hep.pow (by positivity)
      rw [← pow_add]; congr 1; omega
    have hz0 : c.zeta ≠ 0 := hc.zeta.ne_zero (by norm_num)
    have hstep : IsPrimitiveRoot (eo ^ 2 ^ k) (2 ^ (ek - k)) := by
      apply hep.pow (by positivity)
      rw [← pow_add]; congr 1; omega
    have ht := tLoop_spec (c.zeta ^ 2 ^ k) (eo ^ 2 ^ k) (pow_ne_zero _ hz0)
      (m := 2 ^ (ek - k)) (by positivity) hstep (2 ^ (ek - k)) 0 (by omega) (by positivity)
    simp only [pow_zero, mul_one, zero_add] at ht
    have hnew : new c j k = some
        { n := 2 ^ k, k := k, extendedK := ek, omega := om, omegaInv := om⁻¹, extendedOmega := eo,
          extendedOmegaInv := eo⁻¹, gCoset := c.zeta, gCosetInv := c.zeta * c.zeta,
          quotientPolyDegree := j - 1, ifftDivisor := ((2 ^ k : ℕ) : F)⁻¹,
          extendedIfftDivisor := ((2 ^ ek : ℕ) : F)⁻¹,
          tEvaluations := tab (2 ^ (ek - k)) fun t =>
            (c.zeta ^ 2 ^ k * (eo ^ 2 ^ k) ^ t - 1)⁻¹,
          barycentricWeight := ((2 ^ k : ℕ) : F)⁻¹ } := by
      simp only [new, hj, if_false, ← hek, hS, ← heo, ← hom, ht, Option.bind_some, length_tab,
        ne_eq, not_true, batchInvert_eq, List.length_map, List.map_append]
      have hl : ((tab (2 ^ (ek - k)) fun t => c.zeta ^ 2 ^ k * (eo ^ 2 ^ k) ^ t).map
          fun x => x - 1).length = 2 ^ (ek - k) := by simp
      rw [List.drop_left' (by simp), List.take_left' (by simp)]
      simp [tab, Function.comp_def]
    refine ⟨?_, ?_⟩
    · intro d hd
      rw [hnew] at hd
      have hd := Option.some.inj hd
      subst hd
      refine ⟨?_, rfl, by simp; omega, rfl, hx3⟩
      refine
        { n_eq := rfl, k_le := hx1, ext_enough := hx2, omega_prim := homp, ext_prim := hep,
          omega_eq := by simp [hom, squareN_eq], omega_inv := rfl, ext_inv := rfl,
          coset := hc.zeta, coset_inv := zeta_inv hc.zeta,
          n_ne := two_pow_ne_zero homp, ext_ne := two_pow_ne_zero hep, ifft := rfl,
          ext_ifft := rfl, weight := rfl, t_length := by simp, t_eval := ?_ }
      intro i hi
      simp only [tab, List.getElem_map, List.getElem_range]
      have he : c.zeta ^ 2 ^ k * (eo ^ 2 ^ k) ^ i = (c.zeta * eo ^ i) ^ 2 ^ k := by
        rw [mul_pow, ← pow_mul, ← pow_mul, mul_comm i]
      rw [he]
      apply inv_mul_cancel₀
      rw [sub_ne_zero]
      apply coset_pow_ne_one hc.zeta (e := ek)
      rw [← pow_mul, mul_comm, pow_mul, hep.pow_eq_one, one_pow]
    · rw [hnew]
      constructor
      · intro _
        exact ⟨by omega, by omega, le_trans hx2 (Nat.pow_le_pow_right (by norm_num) hS')⟩
      · intro _; exact ⟨_, rfl⟩

variable {d : Domain F}

theorem nil_ne_of_length {m : ℕ} {a : List F} (h : a.length = 2 ^ m) : a ≠ [] := by
  rintro rfl
  have : 0 < 2 ^ m := by positivity
  simp at h; omega

/-- The inverse transform: coefficients of the polynomial taking the given values. -/
theorem ifft_spec (threads : ℕ) (ht : threads ≠ 0) (w : F) (m : ℕ) (hw : IsPrimitiveRoot w (2 ^ m))
    (a : List F) (ha : a.length = 2 ^ m) :
    ∃ out, Domain.ifft threads a w⁻¹ m ((2 ^ m : ℕ) : F)⁻¹ = some out ∧ out.length = 2 ^ m ∧
      evalsOn 1 w (2 ^ m) (toPoly out) = a := by
  have hpos : 0 < 2 ^ m := by positivity
  have hn0 := two_pow_ne_zero hw
  have hf := bestFft_eq_dft threads (by omega) a w⁻¹ m ha hw.inv
  refine ⟨(dft w⁻¹ a).map fun x => x * ((2 ^ m : ℕ) : F)⁻¹, ?_, by simp [ha], ?_⟩
  · simp only [Domain.ifft, hf, Option.bind_some]
    rw [parallelize_map threads ht]
    intro h
    have := congrArg List.length h
    simp [ha] at this
  · have h1 := dft_inv_dft (w := w) a (by rw [ha]; exact hpos) (by rw [ha]; exact hw)
    rw [dft_eq_evals] at h1
    simp only [length_dft, ha] at h1
    have h2 : evalsOn 1 w (2 ^ m) (toPoly ((dft w⁻¹ a).map fun x => x * ((2 ^ m : ℕ) : F)⁻¹))
        = (tab (2 ^ m) fun i => (toPoly (dft w⁻¹ a)).eval (w ^ i)).map
            fun x => ((2 ^ m : ℕ) : F)⁻¹ * x := by
      simp only [evalsOn, tab, List.map_map]
      apply List.map_congr_left
      intro i _
      simp [toPoly_map_mul]
    rw [h2, h1, List.map_map]
    conv_rhs => rw [← List.map_id a]
    apply List.map_congr_left
    intro x _
    simp only [Function.comp, smul_eq_mul, id]
    rw [← mul_assoc, inv_mul_cancel₀ hn0, one_mul]

/-- C04: `lagrange_to_coeff` returns `n` coefficients of the polynomial with the given values on
the domain, the only such list; it panics exactly on a wrong length. -/
theorem lagrangeToCoeff_spec (hd : d.Valid) (threads : ℕ) (ht : threads ≠ 0) (a : List F) :
    (a.length ≠ d.n ↔ d.lagrangeToCoeff threads a = none) ∧
    (∀ out, d.lagrangeToCoeff threads a = some out →
      out.length = d.n ∧ evalsOn 1 d.omega d.n (toPoly out) = a ∧
      ∀ other : List F, other.length = d.n → evalsOn 1 d.omega d.n (toPoly other) = a →
        other = out) := by
  by_cases hl : a.length = 2 ^ d.k
  · obtain ⟨out, h1, h2, h3⟩ := ifft_spec threads ht d.omega d.k hd.omega_prim a hl
    rw [← hd.omega_inv, ← hd.ifft] at h1
    have hsome : d.lagrangeToCoeff threads a = some out := by
      simp [Domain.lagrangeToCoeff, hl, h1]
    rw [hsome, hd.n_eq]
    refine ⟨by simp [hl], ?_⟩
    intro o ho
    have := Option.some.inj ho
    subst this
    refine ⟨h2, h3, ?_⟩
    intro other ho1 ho2
    apply toPoly_injective_of_length (ho1.trans h2.symm)
    have hnd : ((List.range (2 ^ d.k)).map fun i => d.omega ^ i).Nodup := by
      rw [List.nodup_map_iff_inj_on List.nodup_range]
      intro i hi j hj hij
      exact hd.omega_prim.pow_inj (List.mem_range.1 hi) (List.mem_range.1 hj) hij
    apply eq_of_eval_eq (n := 2 ^ d.k) _ hnd
    · have := degree_toPoly_lt other; rwa [ho1] at this
    · have := degree_toPoly_lt out; rwa [h2] at this
    · simp
    · intro x hx
      obtain ⟨i, hi, rfl⟩ := List.mem_map.1 hx
      have := ho2.trans h3.symm
      have := List.map_inj_left.1 this i hi
      simpa using this
  · have hnone : d.lagrangeToCoeff threads a = none := by simp [Domain.lagrangeToCoeff, hl]
    rw [hnone, hd.n_eq]
    exact ⟨by simp [hl], fun o ho => by simp at ho⟩

theorem pow_mod_three {z : F} (hz : z ^ 3 = 1) (i : ℕ) : z ^ i = z ^ (i % 3) := by
  conv_lhs => rw [← Nat.div_add_mod i 3]
  rw [pow_add, pow_mul, hz, one_pow, one_mul]

theorem distribute_true (hd : d.Valid) (threads : ℕ) (ht : threads ≠ 0) (a : List F) (ha : a ≠ []) :
    d.distributePowersZeta threads a true = some (a.mapIdx fun i x => x * d.gCoset ^ i) := by
  have h3 := hd.coset.pow_eq_one
  have hinv : d.gCosetInv = d.gCoset ^ 2 := by
    rw [hd.coset_inv, ← zeta_inv hd.coset, sq]
  have := parallelize_eq_mapIdx threads a (fun i x => x * d.gCoset ^ i) ha ht
  rw [← this]
  unfold Domain.distributePowersZeta
  dsimp only
  congr 1
  funext piece start
  simp only [if_true, hinv]
  congr 1
  funext i x
  rw [pow_mod_three h3 (start + i)]
  have hm : (start + i) % 3 < 3 := Nat.mod_lt _ (by norm_num)
  interval_cases (start + i) % 3 <;> simp

theorem distribute_false (hd : d.Valid) (threads : ℕ) (ht : threads ≠ 0) (a : List F) (ha : a ≠ []) :
    d.distributePowersZeta threads a false = some (a.mapIdx fun i x => x * d.gCoset⁻¹ ^ i) := by
  have h3 : d.gCoset⁻¹ ^ 3 = 1 := by rw [inv_pow, hd.coset.pow_eq_one, inv_one]
  have hg : d.gCoset = d.gCoset⁻¹ ^ 2 := by
    rw [← zeta_inv hd.coset]
    have := hd.coset.pow_eq_one
    calc d.gCoset = d.gCoset * d.gCoset ^ 3 := by rw [this, mul_one]
      _ = (d.gCoset * d.gCoset) ^ 2 := by ring
  have := parallelize_eq_mapIdx threads a (fun i x => x * d.gCoset⁻¹ ^ i) ha ht
  rw [← this]
  unfold Domain.distributePowersZeta
  dsimp only
  congr 1
  funext piece start
  simp only [Bool.false_eq_true, if_false]
  congr 1
  funext i x
  rw [pow_mod_three h3 (start + i), hd.coset_inv]
  have hm : (start + i) % 3 < 3 := Nat.mod_lt _ (by norm_num)
  interval_cases (start + i) % 3
  · simp
  · simp
  · simp only [OfNat.ofNat_ne_zero, if_false, OfNat.ofNat_ne_one]
    rw [← hg]

theorem eval_scale (c : F) (l : List F) (x : F) :
    (toPoly (l.mapIdx fun i a => a * c ^ i)).eval x = (toPoly l).eval (c * x) := by
  rw [eval_toPoly, eval_toPoly, List.length_mapIdx]
  apply Finset.sum_congr rfl
  intro i hi
  have hi := Finset.mem_range.1 hi
  rw [List.getD_eq_getElem _ _ (by simpa using hi), List.getD_eq_getElem _ _ hi]
  simp only [List.getElem_mapIdx, mul_pow]
  ring

theorem extendedLen_ge (hd : d.Valid) : 2 ^ d.k ≤ d.extendedLen :=
  Nat.pow_le_pow_right (by norm_num) hd.k_le

/-- C04: `coeff_to_extended` returns the values of the polynomial on the zeta-coset of the
extended domain; it panics exactly on a wrong length. -/
theorem coeffToExtended_spec (hd : d.Valid) (threads : ℕ) (ht : threads ≠ 0) (a : List F) :
    d.coeffToExtended threads a =
      if a.length = d.n then some (evalsOn d.gCoset d.extendedOmega d.extendedLen (toPoly a))
      else none := by
  rw [hd.n_eq]
  by_cases hl : a.length = 2 ^ d.k
  · have hge := extendedLen_ge hd
    have hne := nil_ne_of_length hl
    simp only [Domain.coeffToExtended, hl, ne_eq, not_true, if_false, if_true,
      distribute_true hd threads ht a hne, Option.bind_some, List.length_mapIdx]
    rw [List.take_of_length_le (by simp [hl]; omega)]
    have hlen : (a.mapIdx (fun i x => x * d.gCoset ^ i) ++
        List.replicate (d.extendedLen - 2 ^ d.k) 0).length = 2 ^ d.extendedK := by
      simp only [List.length_append, List.length_mapIdx, hl, List.length_replicate]
      unfold Domain.extendedLen at *; omega
    rw [bestFft_eq_dft threads (by omega) _ _ _ hlen hd.ext_prim, dft_eq_evals, hlen]
    congr 1
    unfold evalsOn Domain.extendedLen tab
    apply List.map_congr_left
    intro i _
    rw [toPoly_append, toPoly_replicate_zero, mul_zero, add_zero, eval_scale]
  · simp [Domain.coeffToExtended, hl]

/-- C04: `extended_to_coeff` returns the first `n·(j−1)` coefficients of the polynomial of
degree below the extended length with the given values on the coset; it panics exactly on a
wrong length. -/
theorem extendedToCoeff_spec (hd : d.Valid) (threads : ℕ) (ht : threads ≠ 0) (a : List F) :
    (a.length ≠ d.extendedLen ↔ d.extendedToCoeff threads a = none) ∧
    (∀ out, d.extendedToCoeff threads a = some out →
      ∃ full : List F, full.length = d.extendedLen ∧
        evalsOn d.gCoset d.extendedOmega d.extendedLen (toPoly full) = a ∧
        out = full.take (d.n * d.quotientPolyDegree)) := by
  by_cases hl : a.length = d.extendedLen
  · obtain ⟨out, h1, h2, h3⟩ := ifft_spec threads ht d.extendedOmega d.extendedK hd.ext_prim a hl
    rw [← hd.ext_inv, ← hd.ext_ifft] at h1
    have hg0 : d.gCoset ≠ 0 := hd.coset.ne_zero (by norm_num)
    have hsome : d.extendedToCoeff threads a = some
        ((out.mapIdx fun i x => x * d.gCoset⁻¹ ^ i).take (d.n * d.quotientPolyDegree)) := by
      simp [Domain.extendedToCoeff, hl, h1, distribute_false hd threads ht out (nil_ne_of_length h2)]
    rw [hsome]
    refine ⟨by simp [hl], ?_⟩
    intro o ho
    refine ⟨out.mapIdx fun i x => x * d.gCoset⁻¹ ^ i, by simpa [Domain.extendedLen] using h2, ?_, (Option.some.inj ho).symm⟩
    rw [← h3]
    unfold evalsOn Domain.extendedLen
    apply List.map_congr_left
    intro i _
    rw [eval_scale]
    congr 1
    field_simp
  · have : d.extendedToCoeff threads a = none := by simp [Domain.extendedToCoeff, hl]
    rw [this]
    exact ⟨by simp [hl], fun o ho => by simp at ho⟩

theorem coset_nodup (hd : d.Valid) :
    ((List.range d.extendedLen).map fun i => d.gCoset * d.extendedOmega ^ i).Nodup := by
  have hg0 : d.gCoset ≠ 0 := hd.coset.ne_zero (by norm_num)
  rw [List.nodup_map_iff_inj_on List.nodup_range]
  intro i hi j hj hij
  exact hd.ext_prim.pow_inj (List.mem_range.1 hi) (List.mem_range.1 hj)
    (mul_left_cancel₀ hg0 hij)

/-- Values on the extended coset determine coefficient lists up to the extended length. -/
theorem evalsOn_injective (hd : d.Valid) {p q : F[X]} (hp : p.degree < d.extendedLen)
    (hq : q.degree < d.extendedLen)
    (h : evalsOn d.gCoset d.extendedOmega d.extendedLen p
      = evalsOn d.gCoset d.extendedOmega d.extendedLen q) : p = q := by
  apply eq_of_eval_eq (n := d.extendedLen) _ (coset_nodup hd) hp hq
  · simp
  · intro x hx
    obtain ⟨i, hi, rfl⟩ := List.mem_map.1 hx
    exact List.map_inj_left.1 h i hi

/-- C04: converting the values of a polynomial given by up to `extended_len` coefficients back
returns those coefficients, padded with zeros and cut to `n·(j−1)`. -/
theorem extendedToCoeff_evals (hd : d.Valid) (threads : ℕ) (ht : threads ≠ 0) (l : List F)
    (hl : l.length ≤ d.extendedLen) :
    d.extendedToCoeff threads (evalsOn d.gCoset d.extendedOmega d.extendedLen (toPoly l))
      = some ((l ++ List.replicate (d.extendedLen - l.length) 0).take
          (d.n * d.quotientPolyDegree)) := by
  obtain ⟨h1, h2⟩ := extendedToCoeff_spec hd threads ht
    (evalsOn d.gCoset d.extendedOmega d.extendedLen (toPoly l))
  rcases hc : d.extendedToCoeff threads
    (evalsOn d.gCoset d.extendedOmega d.extendedLen (toPoly l)) with _ | out
  · rw [hc] at h1
    have := h1.2 rfl
    simp [evalsOn] at this
  · obtain ⟨full, hf1, hf2, hf3⟩ := h2 out hc
    rw [hf3]
    congr 2
    apply toPoly_injective_of_length
    · simp [hf1]; omega
    · rw [toPoly_append, toPoly_replicate_zero, mul_zero, add_zero]
      apply evalsOn_injective hd _ _ hf2
      · have := degree_toPoly_lt full; rwa [hf1] at this
      · exact lt_of_lt_of_le (degree_toPoly_lt l) (by exact_mod_cast hl)

/-- C04 round trip: moving `n` coefficients to the extended domain and back returns them,
padded with zeros to `n·(j−1)` (for `j ≥ 2`). -/
theorem extendedToCoeff_coeffToExtended (hd : d.Valid) (threads : ℕ) (ht : threads ≠ 0)
    (a : List F) (ha : a.length = d.n) (hj : 1 ≤ d.quotientPolyDegree) :
    (d.coeffToExtended threads a).bind (d.extendedToCoeff threads)
      = some (a ++ List.replicate (d.n * d.quotientPolyDegree - d.n) 0) := by
  have hge := extendedLen_ge hd
  have hen := hd.ext_enough
  have hmul : d.n ≤ d.n * d.quotientPolyDegree := Nat.le_mul_of_pos_right _ hj
  have hnn := hd.n_eq
  rw [coeffToExtended_spec hd threads ht, if_pos ha, Option.bind_some,
    extendedToCoeff_evals hd threads ht a (by omega)]
  congr 1
  rw [List.take_append, List.take_of_length_le (by omega), List.take_replicate]
  congr 2
  unfold Domain.extendedLen at *
  omega

/-! ## Division by the vanishing polynomial (C11) -/

/-- C11: dividing the coset values of `h·(X^n − 1)` by the vanishing polynomial gives the coset
values of `h`; it panics exactly on a wrong length. -/
theorem divideByVanishingPoly_spec (hd : d.Valid) (threads : ℕ) (ht : threads ≠ 0) :
    (∀ h : F[X],
      d.divideByVanishingPoly threads
        (evalsOn d.gCoset d.extendedOmega d.extendedLen (h * (X ^ d.n - 1)))
      = some (evalsOn d.gCoset d.extendedOmega d.extendedLen h)) ∧
    (∀ a, d.divideByVanishingPoly threads a = none ↔ a.length ≠ d.extendedLen) := by
  have htl := hd.t_length
  have hne : ¬ d.tEvaluations.length = 0 := by rw [htl]; positivity
  have hpos : 0 < d.tEvaluations.length := by omega
  have gen : ∀ a : List F, a.length = d.extendedLen → d.divideByVanishingPoly threads a
      = some (a.mapIdx fun i x => x * d.tEvaluations[i % d.tEvaluations.length]'(Nat.mod_lt _ hpos)) := by
    intro a ha
    simp only [Domain.divideByVanishingPoly, ha, ne_eq, not_true, if_false, hne, dite_false]
    have := parallelize_eq_mapIdx threads a
      (fun i x => x * d.tEvaluations[i % d.tEvaluations.length]'(Nat.mod_lt _ hpos))
      (nil_ne_of_length ha) ht
    exact this
  constructor
  · intro h
    rw [gen _ (by simp [evalsOn])]
    congr 1
    apply List.ext_getElem
    · simp [evalsOn]
    · intro i h1 h2
      simp only [List.getElem_mapIdx, evalsOn, List.getElem_map, List.getElem_range, eval_mul,
        eval_sub, eval_pow, eval_X, eval_one]
      have hmod : i % d.tEvaluations.length < d.tEvaluations.length := Nat.mod_lt _ hpos
      have ht' := hd.t_eval (i % d.tEvaluations.length) hmod
      have hpow : (d.gCoset * d.extendedOmega ^ i) ^ d.n
          = (d.gCoset * d.extendedOmega ^ (i % d.tEvaluations.length)) ^ d.n := by
        rw [mul_pow, mul_pow]
        congr 1
        rw [← pow_mul, ← pow_mul]
        conv_lhs => rw [← Nat.div_add_mod i d.tEvaluations.length]
        rw [add_mul, pow_add]
        have : d.extendedOmega ^ (d.tEvaluations.length * (i / d.tEvaluations.length) * d.n) = 1 := by
          rw [htl, hd.n_eq, show 2 ^ (d.extendedK - d.k) * (i / 2 ^ (d.extendedK - d.k)) * 2 ^ d.k
            = 2 ^ (d.extendedK - d.k) * 2 ^ d.k * (i / 2 ^ (d.extendedK - d.k)) by ring, ← pow_add,
            show d.extendedK - d.k + d.k = d.extendedK by have := hd.k_le; omega, pow_mul,
            hd.ext_prim.pow_eq_one, one_pow]
        rw [this, one_mul]
      rw [hpow, mul_assoc, mul_comm (_ - 1), ht', mul_one]
  · intro a
    constructor
    · intro h ha
      rw [gen a ha] at h; simp at h
    · intro h
      simp [Domain.divideByVanishingPoly, h]

/-! ## Lagrange basis evaluations (C12) -/

theorem rotateOmega_eq (hd : d.Valid) (v : F) (r : ℤ) : d.rotateOmega v r = v * d.omega ^ r := by
  unfold Domain.rotateOmega
  split_ifs with h
  · conv_rhs => rw [← Int.toNat_of_nonneg h]
    rw [zpow_natCast]
  · have : r = -((r.natAbs : ℕ) : ℤ) := by omega
    conv_rhs => rw [this]
    rw [zpow_neg, zpow_natCast, hd.omega_inv, inv_pow]

/-- Specification: the Lagrange basis polynomial of row `i`: degree below `n`, value one at
`ω^i` and zero at the other domain points. -/
structure IsLagrangeBasis (d : Domain F) (i : ℤ) (l : F[X]) : Prop where
  degree : l.degree < d.n
  one : l.eval (d.omega ^ i) = 1
  zero : ∀ j : ℤ, d.omega ^ j ≠ d.omega ^ i → l.eval (d.omega ^ j) = 0

theorem omega_zpow_n (hd : d.Valid) (i : ℤ) : (d.omega ^ i) ^ d.n = 1 := by
  rw [hd.n_eq, ← zpow_natCast, ← zpow_mul, mul_comm, zpow_mul, zpow_natCast,
    hd.omega_prim.pow_eq_one, one_zpow]

/-- The points of the domain are the `n`-th roots of unity. -/
theorem root_eq_pow (hd : d.Valid) {x : F} (hx : x ^ d.n = 1) : ∃ i < d.n, d.omega ^ i = x := by
  have : NeZero (2 ^ d.k) := ⟨by positivity⟩
  rw [hd.n_eq] at hx ⊢
  exact hd.omega_prim.eq_pow_of_pow_eq_one hx

/-- `l · (X − ω^i) · n = (X^n − 1) · ω^i`: the closed form of the Lagrange basis. -/
theorem lagrangeBasis_closed (hd : d.Valid) {i : ℤ} {l : F[X]} (hl : IsLagrangeBasis d i l) :
    l * (X - C (d.omega ^ i)) * C ((2 ^ d.k : ℕ) : F) = (X ^ d.n - 1) * C (d.omega ^ i) := by
  have hw0 : d.omega ≠ 0 := hd.omega_prim.ne_zero (by positivity)
  have hnpos : 0 < d.n := by rw [hd.n_eq]; positivity
  -- `(X^n - 1)` divides the left side up to a constant
  set g := d.omega ^ i with hg
  have hroots : ∀ x : F, x ^ d.n = 1 → (l * (X - C g)).eval x = 0 := by
    intro x hx
    obtain ⟨j, _, rfl⟩ := root_eq_pow hd hx
    by_cases h : d.omega ^ j = g
    · simp [h]
    · have := hl.zero (j : ℤ) (by simpa using h)
      rw [zpow_natCast] at this
      simp [this]
  -- the polynomial of degree < n: l (X - g) - c (X^n - 1), with c the leading coefficient
  set c := l.coeff (d.n - 1) with hc
  have hdeg : (l * (X - C g) - C c * (X ^ d.n - 1) : F[X]).degree < ((d.n : ℕ) : WithBot ℕ) := by
    rw [degree_lt_iff_coeff_zero]
    intro m hm
    have hlm : ∀ m, d.n ≤ m → l.coeff m = 0 := fun m hm =>
      (degree_lt_iff_coeff_zero l d.n).1 hl.degree m hm
    obtain ⟨m, rfl⟩ : ∃ m', m = m' + 1 := ⟨m - 1, by omega⟩
    rw [coeff_sub, mul_sub, coeff_sub, coeff_mul_X, coeff_mul_C, hlm (m + 1) hm, mul_sub, coeff_sub,
      mul_one, coeff_C_mul, coeff_X_pow, coeff_C]
    by_cases h : m + 1 = d.n
    · have : m = d.n - 1 := by omega
      rw [if_pos h, this]; simp [hc]
    · rw [if_neg h, hlm m (by omega)]; simp
  have hnd : ((List.range d.n).map fun i => d.omega ^ i).Nodup := by
    rw [List.nodup_map_iff_inj_on List.nodup_range]
    intro i hi j hj hij
    rw [hd.n_eq] at hi hj
    exact hd.omega_prim.pow_inj (List.mem_range.1 hi) (List.mem_range.1 hj) hij
  have hpoly : l * (X - C g) - C c * (X ^ d.n - 1) = 0 := by
    apply eq_of_eval_eq (n := d.n) _ hnd hdeg (by simp [bot_lt_iff_ne_bot])
    · simp
    · intro x hx
      obtain ⟨j, _, rfl⟩ := List.mem_map.1 hx
      have hx1 : (d.omega ^ j) ^ d.n = 1 := by
        have := omega_zpow_n hd (j : ℤ); simpa using this
      rw [eval_sub, hroots _ hx1]
      simp [hx1]
  have hmul : l * (X - C g) = C c * (X ^ d.n - 1) := sub_eq_zero.1 hpoly
  -- differentiate at g to find c
  have hder := congrArg (fun p => (derivative p).eval g) hmul
  simp only [derivative_mul, derivative_sub, derivative_X, derivative_C, sub_zero, mul_one,
    eval_add, eval_mul, eval_sub, eval_X, eval_C, sub_self, mul_zero, zero_add, derivative_X_pow,
    derivative_one, zero_mul, eval_natCast, eval_pow, hl.one, map_natCast] at hder
  have h1 : eval g l = 1 := hl.one
  have hgn : g ^ d.n = 1 := omega_zpow_n hd i
  have hgn1 : g ^ (d.n - 1) * g = 1 := by
    rw [← pow_succ, show d.n - 1 + 1 = d.n by omega, hgn]
  have hcn : c * ((2 ^ d.k : ℕ) : F) = g := by
    rw [← hd.n_eq]
    have : c * (d.n : F) * (g ^ (d.n - 1) * g) = g := by
      calc c * (d.n : F) * (g ^ (d.n - 1) * g) = (c * ((d.n : F) * g ^ (d.n - 1))) * g := by ring
        _ = 1 * g := by rw [← hder, h1]
        _ = g := one_mul g
    rwa [hgn1, mul_one] at this
  rw [hmul, ← hcn, C_mul]
  ring

/-- C12: for `x` outside the domain, `l_i_range(x, x^n, rotations)` returns the values at `x`
of the Lagrange basis polynomials of the rows, in order, and never panics. -/
theorem lIRange_spec [DecidableEq F] (hd : d.Valid) (x : F) (hx : x ^ d.n ≠ 1) (rotations : List ℤ)
    (basis : ℤ → F[X]) (hb : ∀ r ∈ rotations, IsLagrangeBasis d r (basis r)) :
    d.lIRange x (x ^ d.n) rotations = some (rotations.map fun r => (basis r).eval x) := by
  simp only [Domain.lIRange, batchInvert_eq, Option.map_some, Option.some.injEq, List.map_map]
  have hz : rotations.zip (rotations.map ((fun p => p⁻¹) ∘ fun r => x - d.rotateOmega 1 r))
      = rotations.map fun r => (r, (x - d.rotateOmega 1 r)⁻¹) := by
    clear hb
    induction rotations with
    | nil => rfl
    | cons r rs ih => simp [ih]
  rw [hz, List.map_map]
  apply List.map_congr_left
  intro r hr
  simp only [Function.comp, rotateOmega_eq hd, one_mul]
  have hcl := congrArg (eval x) (lagrangeBasis_closed hd (hb r hr))
  simp only [eval_mul, eval_sub, eval_X, eval_C, eval_pow, eval_one] at hcl
  have hne : x - d.omega ^ r ≠ 0 := by
    intro h
    apply hx
    rw [sub_eq_zero.1 h]
    exact omega_zpow_n hd r
  have hn0 := hd.n_ne
  rw [hd.weight]
  field_simp
  rw [mul_comm, ← hcl]
  ring

/-- Inside the domain the same function returns zeros, also for the row whose Lagrange
polynomial is one there: the verifier must not use it there (it does not, see `vanishing`). -/
theorem lIRange_in_domain [DecidableEq F] (x : F) (xn : F) (hx : xn = 1)
    (rotations : List ℤ) :
    d.lIRange x xn rotations = some (rotations.map fun _ => 0) := by
  simp only [Domain.lIRange, batchInvert_eq, Option.map_some, Option.some.injEq, hx, sub_self,
    zero_mul, mul_zero]
  have : ∀ r : ℤ, d.rotateOmega 0 r = 0 := by
    intro r; unfold Domain.rotateOmega; split_ifs <;> simp
  simp only [this]
  apply List.ext_getElem <;> simp

/-- Each row has a Lagrange basis polynomial, so `lIRange_spec` is not vacuous. -/
theorem exists_lagrangeBasis (hd : d.Valid) (i : ℤ) : ∃ l, IsLagrangeBasis d i l := by
  classical
  have hnpos : 0 < d.n := by rw [hd.n_eq]; positivity
  set s : Finset F := ((Finset.range d.n).image fun j => d.omega ^ j) with hs
  have hcard : s.card = d.n := by
    rw [hs, Finset.card_image_of_injOn, Finset.card_range]
    intro a ha b hb hab
    rw [hd.n_eq] at ha hb
    exact hd.omega_prim.pow_inj (Finset.mem_range.1 ha) (Finset.mem_range.1 hb) hab
  have hmem : ∀ j : ℤ, d.omega ^ j ∈ s := by
    intro j
    obtain ⟨m, hm, he⟩ := root_eq_pow hd (omega_zpow_n hd j)
    exact Finset.mem_image.2 ⟨m, Finset.mem_range.2 hm, he⟩
  refine ⟨Lagrange.interpolate s id fun x => if x = d.omega ^ i then 1 else 0, ?_, ?_, ?_⟩
  · rw [← hcard]
    exact Lagrange.degree_interpolate_lt _ (Set.injOn_id _)
  · have := Lagrange.eval_interpolate_at_node (s := s) (v := id)
      (fun x => if x = d.omega ^ i then (1 : F) else 0) (Set.injOn_id _) (hmem i)
    simpa using this
  · intro j hj
    have := Lagrange.eval_interpolate_at_node (s := s) (v := id)
      (fun x => if x = d.omega ^ i then (1 : F) else 0) (Set.injOn_id _) (hmem j)
    simpa [hj] using this

/-! ## Non-vacuity: a domain over the field with 13 elements -/

instance : Fact (Nat.Prime 13) := ⟨by decide⟩

/-- Order 4 root of unity 5 and cube root of unity 3 modulo 13. -/
def consts13 : Consts (ZMod 13) := ⟨2, 5, 3⟩

theorem consts13_valid : consts13.Valid where
  root := IsPrimitiveRoot.mk_of_lt _ (by decide) (by decide)
    (by intro l h1 h2; change l < 4 at h2; interval_cases l <;> decide)
  zeta := IsPrimitiveRoot.mk_of_lt _ (by decide) (by decide)
    (by intro l h1 h2; interval_cases l <;> decide)

/-- `new(3, 1)` succeeds there: two rows, an extended domain of four. -/
theorem new13 : ∃ d, new consts13 3 1 = some d ∧ d.Valid ∧ d.n = 2 ∧ d.extendedK = 2 := by
  obtain ⟨h1, h2⟩ := new_spec consts13 consts13_valid 3 1
  obtain ⟨d, hd⟩ := h2.2 (by decide)
  obtain ⟨hv, hk, hq, _, hmin⟩ := h1 d hd
  refine ⟨d, hd, hv, by rw [hv.n_eq, hk]; rfl, ?_⟩
  have h3 := hmin 2 (by decide) (by decide)
  have h4 := hv.ext_enough
  have hq' : d.quotientPolyDegree = 2 := by omega
  rw [hv.n_eq, hk, hq'] at h4
  by_contra hne
  have : d.extendedK ≤ 1 := by omega
  have := Nat.pow_le_pow_right (n := 2) (by norm_num) this
  omega

example : ∃ d : Domain (ZMod 13), d.Valid ∧
    (d.coeffToExtended 3 [1, 7]).bind (d.extendedToCoeff 3) = some [1, 7, 0, 0] := by
  obtain ⟨d, hd, hv, hn, he⟩ := new13
  have hq : d.quotientPolyDegree = 2 := by
    have := ((new_spec consts13 consts13_valid 3 1).1 d hd).2.2.1; omega
  refine ⟨d, hv, ?_⟩
  rw [extendedToCoeff_coeffToExtended hv 3 (by decide) [1, 7] (by simp [hn]) (by omega), hn, hq]
  rfl

end Verif.Domain
