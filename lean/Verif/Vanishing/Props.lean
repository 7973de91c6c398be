import Verif.Vanishing.Model
import Verif.Evaluator.Props
import Mathlib.Tactic.ComputeDegree

/-!
# C11, C12: the quotient polynomial and the verifier's Lagrange evaluations
-/

namespace Verif.Vanishing

open Verif.Domain Verif.Evaluator Verif.Fft Verif.PolyArith Polynomial
open Verif.Multicore (parallelize parallelize_eq_mapIdx)

variable {F : Type*} [Field F] {d : Domain F}

theorem chunksExact_length {α : Type*} (size : ℕ) (hs : size ≠ 0) (q : ℕ) :
    ∀ v : List α, v.length = size * q →
      (chunksExact size v).length = q ∧ (∀ c ∈ chunksExact size v, c.length = size) ∧
      (chunksExact size v).flatten = v := by
  induction q with
  | zero =>
    intro v hv
    have : v = [] := List.length_eq_zero_iff.1 (by simpa using hv)
    subst this
    have : chunksExact size ([] : List α) = [] := by
      unfold chunksExact; simp
    simp [this]
  | succ q ih =>
    intro v hv
    have hv' : v.length = size * q + size := by rw [hv]; ring
    have : chunksExact size v = v.take size :: chunksExact size (v.drop size) := by
      rw [chunksExact, dif_neg (by push Not; exact ⟨hs, by omega⟩)]
    obtain ⟨h1, h2, h3⟩ := ih (v.drop size) (by simp; omega)
    rw [this]
    refine ⟨by simp [h1], ?_, by simp [h3]⟩
    intro c hc
    rcases List.mem_cons.1 hc with rfl | hc
    · simp; omega
    · exact h2 c hc

/-- Splitting a coefficient list and weighting the pieces by powers of `X^n` gives it back. -/
theorem toPoly_flatten (n : ℕ) (ps : List (List F)) (h : ∀ p ∈ ps, p.length = n) :
    toPoly ps.flatten = ps.foldr (fun p acc => acc * X ^ n + toPoly p) 0 := by
  induction ps with
  | nil => simp [toPoly]
  | cons p ps ih =>
    rw [List.flatten_cons, toPoly_append, ih fun q hq => h q (by simp [hq]), h p (by simp)]
    simp only [List.foldr_cons]
    ring

theorem polyMul_eq (threads : ℕ) (ht : threads ≠ 0) (p : List F) (hp : p ≠ []) (s : F) :
    polyMul threads p s = some (p.map (· * s)) := by
  unfold polyMul
  exact parallelize_map threads ht p hp _

theorem zipUpdate_drop (piece q : List F) (start : ℕ) :
    zipUpdate (· + ·) piece (q.drop start)
      = piece.mapIdx fun i x => x + q.getD (start + i) 0 := by
  induction piece generalizing start with
  | nil => cases q.drop start <;> rfl
  | cons a as ih =>
    by_cases h : start < q.length
    · rw [List.drop_eq_getElem_cons h, zipUpdate, ih (start + 1), List.mapIdx_cons]
      congr 1
      · rw [add_zero, List.getD_eq_getElem _ _ h]
      · congr 1; funext i x; congr 2; omega
    · rw [List.drop_of_length_le (by omega)]
      have : zipUpdate (· + ·) (a :: as) ([] : List F) = a :: as := rfl
      rw [this]
      apply List.ext_getElem
      · simp
      · intro i h1 h2
        simp only [List.getElem_mapIdx, List.getD_eq_getElem?_getD]
        rw [List.getElem?_eq_none (by omega)]
        simp

theorem polyAdd_eq (threads : ℕ) (ht : threads ≠ 0) (p q : List F) (hp : p ≠ [])
    (h : p.length = q.length) : polyAdd threads p q = some (List.zipWith (· + ·) p q) := by
  unfold polyAdd
  rw [if_neg (by omega)]
  have h1 := parallelize_eq_mapIdx threads p (fun i x => x + q.getD i 0) hp ht
  simp only [zipUpdate_drop]
  rw [h1]
  congr 1
  apply List.ext_getElem
  · simp [h]
  · intro i h1 h2
    simp only [List.getElem_mapIdx, List.getElem_zipWith]
    rw [List.getD_eq_getElem]

/-- Recombining pieces of `n` coefficients: never panics and is the polynomial `Σ xnⁱ·pᵢ`. -/
theorem recombine_spec (hd : d.Valid) (threads : ℕ) (ht : threads ≠ 0) (xn : F)
    (ps : List (List F)) (h : ∀ p ∈ ps, p.length = d.n) :
    ∃ out, recombine threads d xn ps = some out ∧ out.length = d.n ∧
      toPoly out = ps.foldr (fun p acc => acc * C xn + toPoly p) 0 := by
  have hn : 0 < d.n := by rw [hd.n_eq]; positivity
  induction ps with
  | nil => exact ⟨_, rfl, by simp, by simp [toPoly_replicate_zero]⟩
  | cons p ps ih =>
    obtain ⟨out, h1, h2, h3⟩ := ih fun q hq => h q (by simp [hq])
    have hne : out ≠ [] := by rintro rfl; simp at h2; omega
    have hp := h p (by simp)
    refine ⟨List.zipWith (· + ·) (out.map (· * xn)) p, ?_, by simp [h2, hp], ?_⟩
    · rw [recombine, h1, Option.bind_some, polyMul_eq threads ht out hne, Option.bind_some,
        polyAdd_eq threads ht _ _ (by simpa using hne) (by simp [h2, hp])]
    · rw [toPoly_zipWith_add (by simp [h2, hp]), toPoly_map_mul, h3]
      simp only [List.foldr_cons]
      ring

theorem eval_foldr (n : ℕ) (x : F) (ps : List (List F)) :
    (ps.foldr (fun p acc => acc * C (x ^ n) + toPoly p) 0).eval x
      = (ps.foldr (fun p acc => acc * X ^ n + toPoly p) 0).eval x := by
  induction ps with
  | nil => simp only [List.foldr_nil]
  | cons p ps ih => simp only [List.foldr_cons, eval_add, eval_mul, eval_C, eval_pow, eval_X, ih]

/-- `X^n − 1` divides every polynomial vanishing on the domain. -/
theorem vanishing_dvd (hd : d.Valid) (D : F[X]) (h : ∀ i < d.n, D.eval (d.omega ^ i) = 0) :
    (X ^ d.n - 1 : F[X]) ∣ D := by
  have hn : 0 < d.n := by rw [hd.n_eq]; positivity
  have hm : (X ^ d.n - 1 : F[X]).Monic := by
    have := monic_X_pow_sub_C (1 : F) hn.ne'
    simpa using this
  have hnd : ((List.range d.n).map fun i => d.omega ^ i).Nodup := by
    rw [List.nodup_map_iff_inj_on List.nodup_range]
    intro i hi j hj hij
    rw [hd.n_eq] at hi hj
    exact hd.omega_prim.pow_inj (List.mem_range.1 hi) (List.mem_range.1 hj) hij
  rw [← modByMonic_eq_zero_iff_dvd hm]
  have hdeg : (D %ₘ (X ^ d.n - 1)).degree < ((d.n : ℕ) : WithBot ℕ) := by
    have h1 := degree_modByMonic_lt D hm
    have h2 : (X ^ d.n - 1 : F[X]).degree = (d.n : WithBot ℕ) := by
      have := degree_X_pow_sub_C hn (1 : F)
      simpa using this
    rwa [h2] at h1
  apply eq_of_eval_eq (n := d.n) _ hnd hdeg (by simp [bot_lt_iff_ne_bot]) (by simp)
  intro x hx
  obtain ⟨i, hi, rfl⟩ := List.mem_map.1 hx
  have hx1 : (d.omega ^ i) ^ d.n = 1 := by
    have := omega_zpow_n hd (i : ℤ); simpa using this
  have h3 := congrArg (eval (d.omega ^ i)) (modByMonic_add_div D (X ^ d.n - 1))
  simp only [eval_add, eval_mul, eval_sub, eval_pow, eval_X, eval_one, hx1, sub_self, zero_mul,
    add_zero] at h3
  rw [h3, h i (List.mem_range.1 hi)]
  simp

/-- C11: let `D` be the polynomial the folded constraint expressions stand for.  If it vanishes
on the whole domain and has degree below `n·j`, the prover computes exactly `j − 1` pieces of
`n` coefficients; recombined with powers of `x^n` they evaluate at `x` to `h(x)` where
`h·(X^n − 1) = D`. -/
theorem construct_spec (hd : d.Valid) (threads : ℕ) (ht : threads ≠ 0)
    (polys : List (List F)) (hp : polys ≠ []) (P : ℕ → F[X])
    (hP : ∀ i p, polys[i]? = some p →
      p = evalsOn d.gCoset d.extendedOmega d.extendedLen (P i)) (exprs : List (Ast F)) (y : F)
    (ha : LeavesOkList polys.length d.n exprs) (D : F[X])
    (hD : D = (exprs.map (denote d.omega P)).foldl (fun acc e => acc * C y + e) 0)
    (hvan : ∀ i < d.n, D.eval (d.omega ^ i) = 0)
    (hdeg : D.degree < ((d.n * (d.quotientPolyDegree + 1) : ℕ) : WithBot ℕ)) :
    ∃ pieces h, construct threads d polys exprs y = some pieces ∧
      pieces.length = d.quotientPolyDegree ∧ (∀ p ∈ pieces, p.length = d.n) ∧
      h * (X ^ d.n - 1) = D ∧
      ∀ x : F, ∃ out, recombine threads d (x ^ d.n) pieces = some out ∧
        (toPoly out).eval x = h.eval x := by
  have hn : 0 < d.n := by rw [hd.n_eq]; positivity
  have hden : denote d.omega P (.distributePowers exprs y) = D := by
    rw [hD]
    simp only [denote]
    have : ∀ (acc : F[X]) (es : List (Ast F)), denotePowers d.omega P y acc es
        = (es.map (denote d.omega P)).foldl (fun acc e => acc * C y + e) acc := by
      intro acc es
      induction es generalizing acc with
      | nil => simp [denotePowers]
      | cons e es ih => simp [denotePowers, ih]
    exact this 0 exprs
  obtain ⟨h, hh⟩ := vanishing_dvd hd D hvan
  have hh' : h * (X ^ d.n - 1) = D := by rw [hh]; ring
  have hdegh : h.degree < ((d.n * d.quotientPolyDegree : ℕ) : WithBot ℕ) := by
    by_cases h0 : h = 0
    · rw [h0, degree_zero]; exact WithBot.bot_lt_coe _
    · have h2 : (X ^ d.n - 1 : F[X]).degree = ((d.n : ℕ) : WithBot ℕ) := by
        have := degree_X_pow_sub_C hn (1 : F)
        simpa using this
      rw [hh, degree_mul, h2, degree_eq_natDegree h0] at hdeg
      rw [degree_eq_natDegree h0]
      have : d.n + h.natDegree < d.n * (d.quotientPolyDegree + 1) := by exact_mod_cast hdeg
      have : d.n * (d.quotientPolyDegree + 1) = d.n * d.quotientPolyDegree + d.n := by ring
      exact_mod_cast (by omega : h.natDegree < d.n * d.quotientPolyDegree)
  -- coefficients of h
  set hc : List F := (List.range (d.n * d.quotientPolyDegree)).map h.coeff with hhc
  have hcl : hc.length = d.n * d.quotientPolyDegree := by simp [hhc]
  have hcp : toPoly hc = h := by
    ext i
    rw [coeff_toPoly]
    by_cases hi : i < d.n * d.quotientPolyDegree
    · rw [List.getD_eq_getElem _ _ (by omega)]; simp [hhc]
    · rw [List.getD_eq_default _ _ (by omega)]
      exact ((degree_lt_iff_coeff_zero h _).1 hdegh i (by omega)).symm
  have h1 := evaluate_extended hd threads ht polys hp P hP (.distributePowers exprs y)
    (by simpa only [LeavesOk] using ha)
  rw [hden, ← hh'] at h1
  have h2 := (divideByVanishingPoly_spec hd threads ht).1 h
  have hle : hc.length ≤ d.extendedLen := by rw [hcl]; exact hd.ext_enough
  have h3 := extendedToCoeff_evals hd threads ht hc hle
  rw [hcp, List.take_append_of_le_length (by omega), List.take_of_length_le (by omega)] at h3
  obtain ⟨c1, c2, c3⟩ := chunksExact_length d.n hn.ne' d.quotientPolyDegree hc hcl
  refine ⟨chunksExact d.n hc, h, ?_, c1, c2, hh', ?_⟩
  · simp only [construct, h1, Option.bind_some, h2, h3, hn.ne', if_false]
  · intro x
    obtain ⟨out, o1, o2, o3⟩ := recombine_spec hd threads ht (x ^ d.n) _ c2
    refine ⟨out, o1, ?_⟩
    rw [o3, eval_foldr, ← toPoly_flatten d.n _ c2, c3, hcp]

/-- Verifier side of C11: for `x` outside the domain the expected value is the folded
expressions divided by `x^n − 1`; inside the domain the verifier panics. -/
theorem expectedHEval_spec [DecidableEq F] (exprs : List F) (y xn : F) :
    (xn = 1 ↔ expectedHEval exprs y xn = none) ∧
    (∀ e, expectedHEval exprs y xn = some e →
      e * (xn - 1) = exprs.foldl (fun acc v => acc * y + v) 0) := by
  unfold expectedHEval
  by_cases h : xn = 1
  · simp [h]
  · have h' : xn - 1 ≠ 0 := sub_ne_zero.2 h
    simp only [h', if_false, h, false_iff, reduceCtorEq, not_false_eq_true, Option.some.injEq,
      true_and]
    rintro e rfl
    rw [mul_assoc, inv_mul_cancel₀ h', mul_one]

theorem foldl_reverse_eq {G : Type*} [AddCommGroup G] [Module F G] (xn : F) (cs : List G) :
    hCommitment xn cs = cs.foldr (fun c acc => xn • acc + c) 0 := by
  unfold hCommitment
  rw [List.foldl_reverse]

/-- The verifier's commitment to `h` and the prover's recombined blinding factor are the
combinations `Σ xnⁱ·cᵢ`. -/
theorem hCommitment_spec {G : Type*} [AddCommGroup G] [Module F G] (xn : F) (cs : List G) :
    hCommitment xn cs = ∑ i ∈ Finset.range cs.length, xn ^ i • cs.getD i 0 := by
  rw [foldl_reverse_eq]
  induction cs with
  | nil => simp
  | cons c cs ih =>
    rw [List.foldr_cons, ih, List.length_cons, Finset.sum_range_succ', Finset.smul_sum]
    simp only [pow_zero, one_smul, List.getD_cons_zero, List.getD_cons_succ]
    congr 1
    apply Finset.sum_congr rfl
    intro i _
    rw [smul_smul, pow_succ, mul_comm]

theorem recombineBlind_spec (xn : F) (bs : List F) :
    recombineBlind xn bs = ∑ i ∈ Finset.range bs.length, xn ^ i * bs.getD i 0 := by
  have : recombineBlind xn bs = hCommitment xn bs := by
    unfold recombineBlind hCommitment
    congr 1
    funext a b
    rw [smul_eq_mul, mul_comm]
  rw [this, hCommitment_spec]
  simp

/-! ## Lagrange polynomials -/

/-- Specification: `p` has degree below `n` and takes the value `v i` on row `i`. -/
structure Interpolates (d : Domain F) (v : ℕ → F) (p : F[X]) : Prop where
  degree : p.degree < ((d.n : ℕ) : WithBot ℕ)
  row : ∀ i < d.n, p.eval (d.omega ^ i) = v i

theorem Interpolates.unique (hd : d.Valid) {v : ℕ → F} {p q : F[X]} (hp : Interpolates d v p)
    (hq : Interpolates d v q) : p = q := by
  have hnd : ((List.range d.n).map fun i => d.omega ^ i).Nodup := by
    rw [List.nodup_map_iff_inj_on List.nodup_range]
    intro i hi j hj hij
    rw [hd.n_eq] at hi hj
    exact hd.omega_prim.pow_inj (List.mem_range.1 hi) (List.mem_range.1 hj) hij
  apply eq_of_eval_eq _ hnd hp.degree hq.degree (by simp)
  intro x hx
  obtain ⟨i, hi, rfl⟩ := List.mem_map.1 hx
  rw [hp.row i (List.mem_range.1 hi), hq.row i (List.mem_range.1 hi)]

/-- Moving `n` row values to coefficients and then to the extended coset: the coset values of
the interpolating polynomial. -/
theorem lagrange_to_extended (hd : d.Valid) (threads : ℕ) (ht : threads ≠ 0) (v : ℕ → F) :
    ∃ p, Interpolates d v p ∧
      ((d.lagrangeToCoeff threads (tab d.n v)).bind fun l => d.coeffToExtended threads l)
        = some (evalsOn d.gCoset d.extendedOmega d.extendedLen p) ∧
      ∃ out, d.lagrangeToCoeff threads (tab d.n v) = some out ∧ toPoly out = p
        ∧ out.length = d.n := by
  obtain ⟨h1, h2⟩ := lagrangeToCoeff_spec hd threads ht (tab d.n v)
  rcases hc : d.lagrangeToCoeff threads (tab d.n v) with _ | out
  · exact absurd (length_tab _ _) (h1.2 hc)
  · obtain ⟨o1, o2, _⟩ := h2 out hc
    refine ⟨toPoly out, ⟨?_, ?_⟩, ?_, out, rfl, rfl, o1⟩
    · have := degree_toPoly_lt out; rwa [o1] at this
    · intro i hi
      have := List.map_inj_left.1 o2 i (List.mem_range.2 hi)
      simpa using this
    · rw [Option.bind_some, coeffToExtended_spec hd threads ht, if_pos o1]

/-- C12, prover side: the proving key's polynomials are the coset values of the polynomials
that are one exactly on row `0`, on row `n − bf − 1`, and on the last `bf` rows. -/
theorem keygen_l_spec (hd : d.Valid) (threads : ℕ) (ht : threads ≠ 0) (bf : ℕ)
    (hbf : bf + 1 ≤ d.n) :
    ∃ l0 lLast lBlind : F[X],
      Interpolates d (fun i => if i = 0 then 1 else 0) l0 ∧
      Interpolates d (fun i => if i = d.n - bf - 1 then 1 else 0) lLast ∧
      Interpolates d (fun i => if d.n - bf ≤ i then 1 else 0) lBlind ∧
      keygenL0 threads d = some (evalsOn d.gCoset d.extendedOmega d.extendedLen l0) ∧
      keygenLLast threads d bf = some (evalsOn d.gCoset d.extendedOmega d.extendedLen lLast) ∧
      keygenLBlind threads d bf = some (evalsOn d.gCoset d.extendedOmega d.extendedLen lBlind) := by
  have hn : 0 < d.n := by rw [hd.n_eq]; positivity
  obtain ⟨l0, a1, a2, _⟩ := lagrange_to_extended hd threads ht (fun i => if i = 0 then 1 else 0)
  obtain ⟨lLast, b1, b2, _⟩ := lagrange_to_extended hd threads ht
    (fun i => if i = d.n - bf - 1 then 1 else 0)
  obtain ⟨lBlind, c1, c2, _⟩ := lagrange_to_extended hd threads ht
    (fun i => if d.n - bf ≤ i then 1 else 0)
  refine ⟨l0, lLast, lBlind, a1, b1, c1, ?_, ?_, ?_⟩
  · rw [keygenL0, set_replicate_eq _ _ _ hn, Option.bind_some, a2]
  · rw [keygenLLast, if_neg (by omega), set_replicate_eq _ _ _ (by omega), Option.bind_some, b2]
  · rw [← c2, keygenLBlind]
    congr 2
    apply tab_ext
    · simp
    · intro i hi
      simp only [List.length_reverse, List.length_mapIdx, List.length_replicate] at hi
      simp only [List.getElem_reverse, List.getElem_mapIdx, List.length_mapIdx,
        List.length_reverse, List.length_replicate, List.getElem_replicate]
      by_cases h : d.n - bf ≤ i
      · rw [if_pos h, if_pos (by omega)]
      · rw [if_neg h, if_neg (by omega)]

theorem interpolates_lagrangeBasis (hd : d.Valid) {i : ℤ} {l : F[X]} (hl : IsLagrangeBasis d i l)
    (j : ℕ) (hj : j < d.n) (hij : d.omega ^ i = d.omega ^ j) :
    Interpolates d (fun t => if t = j then 1 else 0) l := by
  refine ⟨hl.degree, ?_⟩
  intro t ht
  by_cases h : t = j
  · rw [if_pos h, h, ← hij, hl.one]
  · rw [if_neg h]
    have := hl.zero (t : ℤ) (by
      rw [hij, zpow_natCast]
      intro he
      rw [hd.n_eq] at ht hj
      exact h (hd.omega_prim.pow_inj ht hj he))
    simpa using this

/-- C12: for every `x` outside the domain the verifier's `l_0`, `l_last`, `l_blind` are the
values at `x` of the proving key's polynomials of the same names. -/
theorem verifierL_spec [DecidableEq F] (hd : d.Valid) (bf : ℕ) (hbf : bf + 1 < d.n)
    (x : F) (hx : x ^ d.n ≠ 1) (l0 lLast lBlind : F[X])
    (h0 : Interpolates d (fun i => if i = 0 then 1 else 0) l0)
    (h1 : Interpolates d (fun i => if i = d.n - bf - 1 then 1 else 0) lLast)
    (h2 : Interpolates d (fun i => if d.n - bf ≤ i then 1 else 0) lBlind) :
    verifierL d bf x (x ^ d.n) = some (l0.eval x, lLast.eval x, lBlind.eval x) := by
  have hw0 : d.omega ≠ 0 := hd.omega_prim.ne_zero (by positivity)
  choose basis hbasis using fun i : ℤ => exists_lagrangeBasis hd i
  have hl := lIRange_spec hd x hx ((List.range (bf + 2)).map fun i : ℕ => (i : ℤ) - (bf + 1)) basis
    (fun r _ => hbasis r)
  have hneg : ∀ i : ℕ, i ≤ bf → d.omega ^ ((i : ℤ) - (bf + 1)) = d.omega ^ (d.n - bf - 1 + i) := by
    intro i hi
    have : ((i : ℤ) - (bf + 1)) = ((d.n - bf - 1 + i : ℕ) : ℤ) - d.n := by omega
    rw [this, zpow_sub₀ hw0, zpow_natCast, zpow_natCast]
    have : d.omega ^ d.n = 1 := by
      have := omega_zpow_n hd 1; simpa using this
    rw [this, div_one]
  have hb0 : basis 0 = l0 :=
    (interpolates_lagrangeBasis hd (hbasis 0) 0 (by omega) (by simp)).unique hd h0
  have hbl : ∀ i : ℕ, i ≤ bf → Interpolates d
      (fun t => if t = d.n - bf - 1 + i then 1 else 0) (basis ((i : ℤ) - (bf + 1))) := fun i hi =>
    interpolates_lagrangeBasis hd (hbasis _) _ (by omega) (hneg i hi)
  have hbLast : basis (-(bf + 1 : ℤ)) = lLast := by
    have h := hbl 0 (by omega)
    simp only [Nat.cast_zero, zero_sub, add_zero] at h
    exact h.unique hd h1
  have hsum : ((List.range bf).map fun i : ℕ => basis ((i : ℤ) - bf)).sum = lBlind := by
    have hI : ∀ m ≤ bf, Interpolates d
        (fun t => if d.n - bf ≤ t ∧ t < d.n - bf + m then 1 else 0)
        (((List.range m).map fun i : ℕ => basis ((i : ℤ) - bf)).sum) := by
      intro m hm
      induction m with
      | zero =>
        refine ⟨by simp [bot_lt_iff_ne_bot], ?_⟩
        intro t ht
        rw [if_neg (by omega)]; simp
      | succ m ih =>
        have hi := ih (by omega)
        have hb := hbl (m + 1) (by omega)
        rw [show (((m + 1 : ℕ) : ℤ) - (bf + 1)) = (m : ℤ) - bf by push_cast; ring] at hb
        rw [List.range_succ, List.map_append, List.sum_append]
        simp only [List.map_cons, List.map_nil, List.sum_cons, List.sum_nil, add_zero]
        refine ⟨lt_of_le_of_lt (degree_add_le _ _) (max_lt hi.degree hb.degree), ?_⟩
        intro t ht
        rw [eval_add, hi.row t ht, hb.row t ht]
        by_cases hA : d.n - bf ≤ t ∧ t < d.n - bf + m
        · rw [if_pos hA, if_neg (by omega), if_pos (by omega), add_zero]
        · by_cases hB : t = d.n - bf - 1 + (m + 1)
          · rw [if_neg hA, if_pos hB, if_pos (by omega), zero_add]
          · rw [if_neg hA, if_neg hB, if_neg (by omega), add_zero]
    refine Interpolates.unique hd (hI bf le_rfl) ⟨h2.degree, ?_⟩
    intro t ht
    rw [h2.row t ht]
    by_cases h : d.n - bf ≤ t
    · rw [if_pos h, if_pos (by omega)]
    · rw [if_neg h, if_neg (by omega)]
  unfold verifierL
  rw [hl]
  simp only [Option.bind_some, List.map_map, List.length_map, List.length_range, ne_eq,
    show ¬ (¬ bf + 2 = 2 + bf) by omega, if_false]
  rw [List.getElem?_eq_getElem (by simp), List.getElem?_eq_getElem (by simp; omega)]
  simp only [List.getElem_map, List.getElem_range, Function.comp, Option.bind_some,
    Option.map_some, Option.some.injEq, Prod.mk.injEq]
  refine ⟨?_, ?_, ?_⟩
  · rw [← hb0]; congr 2; push_cast; omega
  · rw [← hbLast]; congr 2
    first | done | simp
  · rw [← hsum, ← List.sum_eq_foldl, eval_listSum, List.map_map]
    congr 1
    apply List.ext_getElem
    · simp
    · intro i h1 h2
      simp only [List.getElem_take, List.getElem_drop, List.getElem_map, List.getElem_range,
        Function.comp]
      congr 2; push_cast; ring

/-- The hypotheses of `construct_spec` are met: over the field with 13 elements, two rows, the
expressions `X² − 1` (as a product of leaves, zero on both rows) and `0`. -/
example : ∃ d : Domain (ZMod 13), d.Valid ∧ ∃ pieces,
    construct 3 d [evalsOn d.gCoset d.extendedOmega d.extendedLen (X : (ZMod 13)[X])]
      [.add (.mul (.poly 0 0) (.poly 0 0)) (.constantTerm (-1)), .constantTerm 0] 5
      = some pieces ∧ pieces.length = 2 := by
  obtain ⟨d, hdn, hv, hn, _⟩ := new13
  have hq : d.quotientPolyDegree = 2 := by
    have := ((new_spec consts13 consts13_valid 3 1).1 d hdn).2.2.1; omega
  have hw2 : d.omega ^ 2 = 1 := by
    have := hv.omega_prim.pow_eq_one; rwa [← hv.n_eq, hn] at this
  have hD : ((X ^ 2 - 1) * C 5 : (ZMod 13)[X]) = ([.add (.mul (.poly 0 0) (.poly 0 0))
      (.constantTerm (-1)), .constantTerm 0].map (denote d.omega fun _ => X)).foldl
      (fun acc e => acc * C 5 + e) 0 := by
    simp only [denote, List.map_cons, List.map_nil, List.foldl_cons, List.foldl_nil, zpow_zero, map_one, one_mul, X_comp, map_neg, map_zero]
    ring
  obtain ⟨pieces, h, h1, h2, _⟩ := construct_spec hv 3 (by decide)
    [evalsOn d.gCoset d.extendedOmega d.extendedLen (X : (ZMod 13)[X])] (by simp) (fun _ => X)
    (by
      intro i p h
      rcases i with _ | i
      · simpa using h.symm
      · simp at h)
    [.add (.mul (.poly 0 0) (.poly 0 0)) (.constantTerm (-1)), .constantTerm 0] 5
    (by simp [LeavesOk, LeavesOkList]) ((X ^ 2 - 1) * C 5) hD
    (by
      intro i _
      have : (d.omega ^ i) ^ 2 = 1 := by rw [← pow_mul, mul_comm, pow_mul, hw2, one_pow]
      simp [this])
    (by
      rw [hn, hq]
      refine lt_of_le_of_lt (degree_le_of_natDegree_le (n := 2) ?_) (by norm_num)
      compute_degree)
  exact ⟨d, hv, pieces, h1, by omega⟩

end Verif.Vanishing
