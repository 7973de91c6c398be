import Verif.Plonk.Sound

/-!
# C50: an assignment violating a constraint is accepted for few challenges only
-/

namespace Verif.Plonk

open Verif.Expr Verif.ExprEval
open Verif.Cs (Cs Column Lookup)
open Verif.Domain (Domain evalsOn)
open Verif.PolyArith (evalPolynomial toPoly)
open Polynomial (C X)

variable {F : Type*} [Field F] {d : Domain F} {cs : Cs F}

/-! ## Specification -/

/-- Specification: the check of the verifier on polynomials chosen by anyone: with the evaluations
of those polynomials, the expected evaluation of the quotient exists and is the evaluation of the
recombined quotient pieces. -/
def Accepts [DecidableEq F] (threads : ℕ) (d : Domain F) (cs : Cs F) (delta : F)
    (ch : Challenges F) (pk : Pk F) (proofs : List (CircuitProof F)) (pieces : List (List F))
    (x : F) : Prop :=
  ∃ fe es e out,
    queryEvals d x pk.fixedPolys cs.fixedQueries = some fe ∧
    proofs.mapM (circuitEvals d cs x) = some es ∧
    expectedH d cs delta ch x fe (pk.permPolys.map fun p => evalPolynomial p x) es = some e ∧
    Verif.Vanishing.recombine threads d (x ^ d.n) pieces = some out ∧
    evalPolynomial out x = e

/-- Specification: some gate, copy or lookup is violated. -/
def Violates (d : Domain F) (cs : Cs F) (fv : List (List F))
    (calls : List (Verif.Copy.Call Column)) (w : Circuit F) : Prop :=
  (∃ j < d.n, ∃ e ∈ cs.gates.flatten, rowVal d.n (cols fv w) j e ≠ 0) ∨
  ¬ Verif.Permutation.CopiesHold cs.permutation d.n calls (colValues fv w) ∨
  ∃ l ∈ cs.lookups, ∃ i < d.n - (cs.blindingFactors + 1),
    ∀ j < d.n - (cs.blindingFactors + 1),
      l.input.map (rowVal d.n (cols fv w) i) ≠ l.table.map (rowVal d.n (cols fv w) j)

/-- What is committed for one circuit before `theta`: the coefficients of its advice columns; the
instance columns are public. -/
structure Columns (F : Type*) where
  advice : List (List F)
  inst : List (List F)

/-- What is committed for one circuit between `gamma` and `y`: the permutation and the lookup
product columns. -/
structure Products (F : Type*) where
  permutation : List (List F)
  lookups : List (List F)

/-- The messages of all rounds put together; `permuted` holds for every circuit and lookup the
permuted input and table columns. -/
def assemble (columns : List (Columns F)) (permuted : List (List (List F × List F)))
    (products : List (Products F)) : List (CircuitProof F) :=
  ((columns.zip permuted).zip products).map
    fun (q : (Columns F × List (List F × List F)) × Products F) =>
      ⟨q.1.1.advice, q.1.1.inst, q.2.permutation, (q.1.2.zip q.2.lookups).map
        fun (r : (List F × List F) × List F) => (r.2, r.1.1, r.1.2)⟩

/-- The largest number of `theta` values that can make two distinct tuples look alike. -/
def maxWidth (cs : Cs F) : ℕ := cs.lookups.foldr (fun l m => max (l.input.length - 1) m) 0

/-! ## The last two rounds -/

/-- Horner's rule over polynomials in `y`. -/
noncomputable def horner (vs : List F) : Polynomial F := vs.foldl (fun acc v => acc * X + C v) 0

theorem horner_snoc (vs : List F) (v : F) : horner (vs ++ [v]) = horner vs * X + C v := by
  rw [horner, List.foldl_append]; rfl

theorem horner_eval (vs : List F) (y : F) :
    (horner vs).eval y = vs.foldl (fun acc v => acc * y + v) 0 := by
  induction vs using List.reverseRecOn with
  | nil => simp [horner]
  | append_singleton vs v ih => rw [horner_snoc, List.foldl_append]; simp [ih]

theorem horner_natDegree (vs : List F) : (horner vs).natDegree ≤ vs.length - 1 := by
  induction vs using List.reverseRecOn with
  | nil => simp [horner]
  | append_singleton vs v ih =>
    rw [horner_snoc]
    refine (Polynomial.natDegree_add_C).le.trans ?_
    rw [List.length_append, List.length_singleton, Nat.add_sub_cancel]
    rcases Nat.eq_zero_or_pos vs.length with h | h
    · rw [List.length_eq_zero_iff.1 h]; simp [horner]
    · refine Polynomial.natDegree_mul_le.trans ?_
      have := Polynomial.natDegree_X_le (R := F)
      omega

theorem horner_eq_zero {vs : List F} (h : horner vs = 0) : ∀ v ∈ vs, v = 0 := by
  induction vs using List.reverseRecOn with
  | nil => simp
  | append_singleton vs v ih =>
    rw [horner_snoc] at h
    have h0 : v = 0 := by
      have := congrArg (fun p => p.coeff 0) h
      simpa using this
    rw [h0, Polynomial.C_0, add_zero] at h
    have h1 : horner vs = 0 := by
      rcases mul_eq_zero.1 h with h | h
      · exact h
      · exact absurd h Polynomial.X_ne_zero
    intro u hu
    rcases List.mem_append.1 hu with hu | hu
    · exact ih h1 u hu
    · rw [List.mem_singleton.1 hu, h0]

theorem roots_card {p : Polynomial F} {b : ℕ} (hb : p.natDegree ≤ b) :
    ∃ S : Finset F, S.card ≤ b ∧ (p ≠ 0 → ∀ y ∉ S, p.eval y ≠ 0) := by
  classical
  refine ⟨p.roots.toFinset, (Multiset.toFinset_card_le _).trans ((Polynomial.card_roots' p).trans hb),
    fun hp y hy h => hy ?_⟩
  rw [Multiset.mem_toFinset, Polynomial.mem_roots hp]
  exact h

theorem natDegree_foldr_pieces (n : ℕ) (hn : 0 < n) (ps : List (List F))
    (h : ∀ p ∈ ps, p.length = n) :
    (ps.foldr (fun p acc => acc * X ^ n + toPoly p) 0).degree < ((n * ps.length : ℕ) : WithBot ℕ)
      ∨ ps = [] := by
  rcases ps with _ | ⟨p, ps⟩
  · exact Or.inr rfl
  · left
    have := Verif.PolyArith.degree_toPoly_lt (p :: ps).flatten
    rw [Verif.Vanishing.toPoly_flatten n _ h] at this
    refine this.trans_le ?_
    have hl : (p :: ps).flatten.length = n * (p :: ps).length := by
      have : ∀ (l : List (List F)), (∀ p ∈ l, p.length = n) → l.flatten.length = n * l.length := by
        intro l
        induction l with
        | nil => simp
        | cons a l ih =>
          intro hl
          rw [List.flatten_cons, List.length_append, ih fun q hq => hl q (by simp [hq]),
            hl a (by simp), List.length_cons]
          ring
      exact this _ h
    rw [hl]

/-- Rounds `y` and `x`: whoever commits to columns whose rows violate a constraint (for the
challenges so far) is accepted for few `y` and `x` only. -/
theorem xy_sound [DecidableEq F] (hd : d.Valid) {threads : ℕ} (ht : threads ≠ 0)
    (hdeg : cs.degree ≤ d.quotientPolyDegree + 1) (hr : Ready cs d.n)
    (hbf : cs.blindingFactors + 1 < d.n) (delta theta beta gamma : F) {fv perms : List (List F)}
    (hfl : fv.length = cs.numFixed) (hf : ∀ v ∈ fv, v.length = d.n)
    (hpl : perms.length = cs.permutation.length) (hpn : ∀ v ∈ perms, v.length = d.n)
    {pk : Pk F} (hpk : keygenPk threads d cs.blindingFactors fv perms = some pk)
    (proofs : List (CircuitProof F)) (hs : ∀ p ∈ proofs, Shape d cs p) (p : CircuitProof F)
    (hp : p ∈ proofs) (hbad : ¬ RowsHold d cs delta ⟨theta, beta, gamma, 0⟩ fv perms
      (circuitOf d p.advicePolys p.instPolys) (p.permutation.map (rows d))
      (p.lookups.map fun q => (rows d q.1, rows d q.2.1, rows d q.2.2))) :
    ∃ Y : Finset F, Y.card ≤ proofs.length * numExpressions cs - 1 ∧ ∀ y ∉ Y,
      ∀ pieces : List (List F), pieces.length = d.quotientPolyDegree →
        (∀ q ∈ pieces, q.length = d.n) →
        ∃ Xs : Finset F, Xs.card < d.n * (d.quotientPolyDegree + 1) ∧ ∀ x ∉ Xs,
          ¬ Accepts threads d cs delta ⟨theta, beta, gamma, y⟩ pk proofs pieces x := by
  have h3 := three_le_degree cs
  obtain ⟨pk', fp, pp, p0, pB, pL, hpk', ⟨k1, k2, k3, k4, k5, k6, k7, k8, k9⟩, ⟨fpl, fpr⟩,
    ⟨ppl, ppr⟩, ⟨p0l, pBl, pLl⟩, i0, iL, iB⟩ :=
    keygenPk_spec hd ht cs.blindingFactors hbf fv perms hf hpn
  rw [hpk] at hpk'
  obtain rfl := Option.some.inj hpk'
  have key := fun p (hp : p ∈ proofs) => expression_polys hd hr hbf delta theta beta gamma hfl hpl
    fpl fpr ppl ppr p0l pBl pLl i0 iL iB p (hs p hp)
  choose! Es e1 e2 e3 e4 using key
  -- a violated expression
  obtain ⟨E, hE, j, hj, hne⟩ : ∃ E ∈ Es p, ∃ j < d.n, E.eval (d.omega ^ j) ≠ 0 := by
    by_contra hc
    push Not at hc
    exact hbad (e4 p hp hc 0)
  obtain ⟨all, hall⟩ : ∃ all, all = (proofs.map Es).flatten := ⟨_, rfl⟩
  have hmem : E ∈ all := by
    rw [hall]; exact List.mem_flatten.2 ⟨Es p, List.mem_map_of_mem hp, hE⟩
  have hlen : all.length = proofs.length * numExpressions cs := by
    rw [hall, List.length_flatten, List.map_map]
    rw [show (proofs.map (List.length ∘ Es)) = proofs.map fun _ => numExpressions cs from
      List.map_congr_left fun q hq => e1 q hq]
    simp
  obtain ⟨Y, hY1, hY2⟩ := roots_card (horner_natDegree (all.map fun E => E.eval (d.omega ^ j)))
  rw [List.length_map, hlen] at hY1
  refine ⟨Y, hY1, ?_⟩
  intro y hy pieces hpl' hpc
  have hny : (all.map fun E => E.eval (d.omega ^ j)).foldl (fun acc v => acc * y + v) 0 ≠ 0 := by
    have := hY2 (fun h => hne (horner_eq_zero h _ (List.mem_map_of_mem hmem))) y hy
    rwa [horner_eval] at this
  obtain ⟨D, hD⟩ : ∃ D : Polynomial F, D = all.foldl (fun acc e => acc * C y + e) 0 := ⟨_, rfl⟩
  obtain ⟨h, hh⟩ : ∃ h : Polynomial F,
    h = pieces.foldr (fun p acc => acc * X ^ d.n + toPoly p) 0 := ⟨_, rfl⟩
  have hDj : D.eval (d.omega ^ j) ≠ 0 := by
    rw [hD, foldl_eval, Polynomial.eval_zero]; exact hny
  have hwn : d.omega ^ d.n = 1 := by rw [hd.n_eq]; exact hd.omega_prim.pow_eq_one
  have hdiff : D - h * (X ^ d.n - 1) ≠ 0 := by
    intro hc
    apply hDj
    have := congrArg (Polynomial.eval (d.omega ^ j)) hc
    rw [Polynomial.eval_sub, Polynomial.eval_mul, Polynomial.eval_sub, Polynomial.eval_pow,
      Polynomial.eval_X, Polynomial.eval_one, ← pow_mul, mul_comm j, pow_mul, hwn, one_pow, sub_self,
      mul_zero, sub_zero, Polynomial.eval_zero] at this
    exact this
  have hDdeg : D.natDegree ≤ cs.degree * (d.n - 1) := by
    rw [hD]
    have key : ∀ (ps : List (Polynomial F)) (acc : Polynomial F),
        acc.natDegree ≤ cs.degree * (d.n - 1) →
        (∀ p ∈ ps, p.natDegree ≤ cs.degree * (d.n - 1)) →
        (ps.foldl (fun acc e => acc * C y + e) acc).natDegree ≤ cs.degree * (d.n - 1) := by
      intro ps
      induction ps with
      | nil => intro acc h _; exact h
      | cons p ps ih =>
        intro acc hacc hps
        refine ih _ ?_ fun q hq => hps q (by simp [hq])
        refine (Polynomial.natDegree_add_le _ _).trans (max_le ?_ (hps p (by simp)))
        exact (Polynomial.natDegree_mul_C_le _ _).trans hacc
    refine key all 0 (by simp) ?_
    intro q hq
    rw [hall] at hq
    simp only [List.mem_flatten, List.mem_map] at hq
    obtain ⟨_, ⟨p', hp', rfl⟩, hq⟩ := hq
    exact e2 p' hp' q hq
  have hDl : D.natDegree < d.n * (d.quotientPolyDegree + 1) := by
    refine hDdeg.trans_lt ?_
    calc cs.degree * (d.n - 1) ≤ (d.quotientPolyDegree + 1) * (d.n - 1) :=
          Nat.mul_le_mul_right _ hdeg
      _ < (d.quotientPolyDegree + 1) * d.n :=
          Nat.mul_lt_mul_of_pos_left (by omega) (by omega)
      _ = d.n * (d.quotientPolyDegree + 1) := mul_comm _ _
  have hhl : (h * (X ^ d.n - 1)).natDegree < d.n * (d.quotientPolyDegree + 1) := by
    rcases natDegree_foldr_pieces d.n (by omega) pieces hpc with hlt | hnil
    · rw [← hh, hpl'] at hlt
      rcases eq_or_ne h 0 with h0 | h0
      · rw [h0, zero_mul, Polynomial.natDegree_zero]; exact Nat.mul_pos (by omega) (by omega)
      · have h1 : h.natDegree < d.n * d.quotientPolyDegree :=
          (Polynomial.natDegree_lt_iff_degree_lt h0).2 hlt
        refine Polynomial.natDegree_mul_le.trans_lt ?_
        have h2 : (X ^ d.n - 1 : Polynomial F).natDegree ≤ d.n := by
          have := Polynomial.natDegree_X_pow_sub_C (n := d.n) (r := (1 : F))
          rw [Polynomial.C_1] at this
          exact this.le
        rw [Nat.mul_add, Nat.mul_one]
        omega
    · rw [hh, hnil, List.foldr_nil, zero_mul, Polynomial.natDegree_zero]; exact Nat.mul_pos (by omega) (by omega)
  obtain ⟨Xs, hX1, hX2⟩ := roots_card (p := D - h * (X ^ d.n - 1))
    (b := d.n * (d.quotientPolyDegree + 1) - 1) (by
      refine (Polynomial.natDegree_sub_le _ _).trans ?_
      omega)
  refine ⟨Xs, by omega, ?_⟩
  rintro x hx ⟨fe, es, e, out, a1, a2, a3, a4, a5⟩
  have hne := hX2 hdiff x hx
  -- the verifier did not panic
  have hxn : x ^ d.n ≠ 1 := by
    intro hc
    rw [expectedH] at a3
    simp only [Option.bind_eq_some_iff] at a3
    obtain ⟨l, -, exprs, -, b⟩ := a3
    rw [(Verif.Vanishing.expectedHEval_spec _ _ _).1.1 hc] at b
    exact absurd b (by simp)
  have hvl := Verif.Vanishing.verifierL_spec hd cs.blindingFactors hbf x hxn _ _ _ i0 iL iB
  have hes : ∃ es', proofs.mapM (circuitEvals d cs x) = some es' ∧
      (es'.mapM fun e => verifierExpressions cs delta ⟨theta, beta, gamma, y⟩ x fe
        (pp.map fun p => evalPolynomial p x) ((toPoly p0).eval x, (toPoly pL).eval x,
          (toPoly pB).eval x) e) = some (proofs.map fun p => (Es p).map fun E => E.eval x) := by
    have key : ∀ ps : List (CircuitProof F), (∀ p ∈ ps, p ∈ proofs) →
        ∃ es', ps.mapM (circuitEvals d cs x) = some es' ∧
      (es'.mapM fun e => verifierExpressions cs delta ⟨theta, beta, gamma, y⟩ x fe
        (pp.map fun p => evalPolynomial p x) ((toPoly p0).eval x, (toPoly pL).eval x,
          (toPoly pB).eval x) e) = some (ps.map fun p => (Es p).map fun E => E.eval x) := by
      intro ps
      induction ps with
      | nil => intro _; exact ⟨[], rfl, rfl⟩
      | cons q ps ih =>
        intro hps
        obtain ⟨es', f1, f2⟩ := ih fun p hp => hps p (by simp [hp])
        obtain ⟨fe', e', g1, g2, g3⟩ := e3 q (hps q (by simp)) x y
        rw [k2, g1] at a1
        obtain rfl := Option.some.inj a1
        refine ⟨e' :: es', ?_, ?_⟩
        · rw [List.mapM_cons, g2, f1]; rfl
        · rw [List.mapM_cons, g3, f2]; rfl
    exact key proofs fun p hp => hp
  obtain ⟨es', f1, f2⟩ := hes
  rw [a2] at f1
  obtain rfl := Option.some.inj f1
  rw [k5, expectedH, hvl, Option.bind_some, f2, Option.bind_some] at a3
  have hE := (Verif.Vanishing.expectedHEval_spec _ _ _).2 e a3
  obtain ⟨out', o1, -, o3⟩ := Verif.Vanishing.recombine_spec hd threads ht (x ^ d.n) pieces hpc
  rw [a4] at o1
  obtain rfl := Option.some.inj o1
  rw [Verif.PolyArith.evalPolynomial_eq, o3, Verif.Vanishing.eval_foldr, ← hh] at a5
  apply hne
  rw [Polynomial.eval_sub, Polynomial.eval_mul, Polynomial.eval_sub, Polynomial.eval_pow,
    Polynomial.eval_X, Polynomial.eval_one, a5, hE, hD, foldl_eval, Polynomial.eval_zero, hall,
    List.map_flatten, List.map_map]
  exact sub_self _

/-! ## All rounds -/

theorem le_maxWidth {l : Lookup F} (hl : l ∈ cs.lookups) : l.input.length - 1 ≤ maxWidth cs := by
  rw [maxWidth]
  generalize cs.lookups = ls at hl
  induction ls with
  | nil => simp at hl
  | cons a ls ih =>
    rw [List.foldr_cons]
    rcases List.mem_cons.1 hl with rfl | h
    · exact le_max_left _ _
    · exact (ih h).trans (le_max_right _ _)

/-- Rounds `theta`, `beta` and `gamma`: if the committed columns violate a constraint, then for
all but few challenges no permuted and product columns satisfy the row constraints. -/
theorem rows_sound {T : ℕ} (hd : d.Valid) (hr : Ready cs d.n)
    (hbf : cs.blindingFactors + 1 < d.n)
    (hwidth : ∀ l ∈ cs.lookups, l.input.length = l.table.length) {delta : F}
    (hdelta : IsPrimitiveRoot delta T) (hT : Nat.Coprime d.n T) (hm : cs.permutation.length ≤ T)
    (fv : List (List F)) (calls : List (Verif.Copy.Call Column))
    (hrows : ∀ c ∈ calls, c.leftRow < d.n - (cs.blindingFactors + 1) ∧
      c.rightRow < d.n - (cs.blindingFactors + 1)) (w : Circuit F)
    (hbad : Violates d cs fv calls w) :
    ∃ Θ : Finset F, Θ.card ≤ maxWidth cs * (d.n - (cs.blindingFactors + 1)) ∧ ∀ theta ∉ Θ,
      ∀ permuted : List (List F × List F),
      ∃ B : Finset F, B.card ≤ (cs.permutation.length + 2) * (d.n - (cs.blindingFactors + 1)) ∧
        ∀ beta ∉ B,
      ∃ G : Finset F, G.card ≤ (2 * cs.permutation.length + 2) * (d.n - (cs.blindingFactors + 1)) ∧
        ∀ gamma ∉ G, ∀ zs lzs, permuted.length = cs.lookups.length →
          lzs.length = cs.lookups.length →
        ¬ RowsHold d cs delta ⟨theta, beta, gamma, 0⟩ fv (permsOf d cs delta calls) w zs
          ((permuted.zip lzs).map fun (r : (List F × List F) × List F) =>
            (r.2, r.1.1, r.1.2)) := by
  set u := d.n - (cs.blindingFactors + 1) with hu
  have h3 := three_le_degree cs
  have hw : IsPrimitiveRoot d.omega d.n := by rw [hd.n_eq]; exact hd.omega_prim
  rcases hbad with ⟨j, hj, e, he, hne⟩ | hcopy | ⟨l, hl, i, hi, hne⟩
  · refine ⟨∅, by simp, fun theta _ permuted => ⟨∅, by simp, fun beta _ => ⟨∅, by simp, ?_⟩⟩⟩
    intro gamma _ zs lzs _ _ h
    exact hne (h.gates j hj e he)
  · refine ⟨∅, by simp, fun theta _ permuted => ?_⟩
    obtain ⟨B, hB, hG⟩ := Verif.Permutation.soundness d.omega delta d.n cs.blindingFactors cs.degree
      T h3 hbf.le hw hdelta hT (colValues fv w) cs.permutation hm calls hrows hcopy
    refine ⟨B, hB.le.trans (Nat.mul_le_mul_right _ (by omega)), fun beta hb => ?_⟩
    obtain ⟨G, hG1, hG2⟩ := hG beta hb
    refine ⟨G, hG1.trans ?_, fun gamma hg zs lzs _ _ h => ?_⟩
    · rw [← mul_assoc]; exact Nat.mul_le_mul_right _ (by omega)
    · exact hG2 gamma hg _ h.permutation
  · obtain ⟨Θ, h1, h2⟩ := Verif.Lookup.compress_sound l (hwidth l hl) d.n cs.blindingFactors
      (cols fv w) i hne
    refine ⟨Θ, h1.trans ?_, fun theta hth permuted => ?_⟩
    · rw [mul_comm]; exact Nat.mul_le_mul_right _ (le_maxWidth hl)
    obtain ⟨k, hk, hkl⟩ := List.getElem_of_mem hl
    obtain ⟨B, hB, hG⟩ := Verif.Lookup.soundness cs l (hr.lookups l hl) d.n cs.blindingFactors
      hbf.le theta (cols fv w) ⟨i, hi, h2 theta hth⟩
      (fun j => ((permuted.getD k ([], [])).1).getD j 0)
      (fun j => ((permuted.getD k ([], [])).2).getD j 0)
    refine ⟨B, hB.trans (Nat.mul_le_mul_right _ (by omega)), fun beta hb => ?_⟩
    obtain ⟨G, hG1, hG2⟩ := hG beta hb
    refine ⟨G, hG1.trans (Nat.mul_le_mul_right _ (by omega)), fun gamma hg zs lzs hp hz h => ?_⟩
    have hf := h.lookups
    have hk2 : k < ((permuted.zip lzs).map fun (r : (List F × List F) × List F) =>
        (r.2, r.1.1, r.1.2)).length := by
      rw [← hf.length_eq]; exact hk
    have := hf.get hk hk2
    simp only [List.get_eq_getElem, List.getElem_map, List.getElem_zip, hkl] at this
    rw [List.getD_eq_getElem _ _ (by omega)] at hG2
    exact hG2 gamma hg _ this

theorem assemble_get {columns : List (Columns F)} {permuted : List (List (List F × List F))}
    {products : List (Products F)} (i : ℕ) (h1 : i < columns.length) (h2 : i < permuted.length)
    (h3 : i < products.length) :
    (⟨columns[i].advice, columns[i].inst, products[i].permutation,
      (permuted[i].zip products[i].lookups).map
        fun (r : (List F × List F) × List F) => (r.2, r.1.1, r.1.2)⟩ : CircuitProof F)
      ∈ assemble columns permuted products := by
  rw [assemble]
  refine List.mem_map.2 ⟨((columns[i], permuted[i]), products[i]), ?_, rfl⟩
  have hi : i < ((columns.zip permuted).zip products).length := by simp; omega
  have := List.getElem_mem hi
  simpa using this

/-- **C50.**  Take any valid domain large enough for the constraint system and the proving key
generated for it, and let anyone commit to columns for any number of circuits, one of which
violates a gate on some row, a copy, or a lookup.  Then for all but `maxWidth·u` values of `theta`,
whatever permuted columns are committed, for all but `(m+2)·u` values of `beta` and all but
`(2m+2)·u` values of `gamma`, whatever product columns are committed, for all but
`circuits·expressions - 1` values of `y`, whatever quotient pieces are committed, the verifier's
check fails for all but fewer than `n·(pieces+1)` values of `x`.  Here `u` is the number of usable
rows and `m` the number of columns of the permutation. -/
theorem soundness [DecidableEq F] {T : ℕ} (hd : d.Valid) {threads : ℕ} (ht : threads ≠ 0)
    (hdeg : cs.degree ≤ d.quotientPolyDegree + 1) (hr : Ready cs d.n)
    (hbf : cs.blindingFactors + 1 < d.n)
    (hwidth : ∀ l ∈ cs.lookups, l.input.length = l.table.length) {delta : F}
    (hdelta : IsPrimitiveRoot delta T) (hT : Nat.Coprime d.n T) (hm : cs.permutation.length ≤ T)
    {fv : List (List F)} (hfl : fv.length = cs.numFixed) (hf : ∀ v ∈ fv, v.length = d.n)
    (calls : List (Verif.Copy.Call Column))
    (hrows : ∀ c ∈ calls, c.leftRow < d.n - (cs.blindingFactors + 1) ∧
      c.rightRow < d.n - (cs.blindingFactors + 1)) {pk : Pk F}
    (hpk : keygenPk threads d cs.blindingFactors fv (permsOf d cs delta calls) = some pk)
    (columns : List (Columns F)) (w : Columns F) (hw : w ∈ columns)
    (hbad : Violates d cs fv calls (circuitOf d w.advice w.inst)) :
    ∃ Θ : Finset F, Θ.card ≤ maxWidth cs * (d.n - (cs.blindingFactors + 1)) ∧ ∀ theta ∉ Θ,
      ∀ permuted : List (List (List F × List F)),
      ∃ B : Finset F, B.card ≤ (cs.permutation.length + 2) * (d.n - (cs.blindingFactors + 1)) ∧
        ∀ beta ∉ B,
      ∃ G : Finset F, G.card ≤ (2 * cs.permutation.length + 2) * (d.n - (cs.blindingFactors + 1)) ∧
        ∀ gamma ∉ G, ∀ products : List (Products F),
        permuted.length = columns.length → products.length = columns.length →
        (∀ ps ∈ permuted, ps.length = cs.lookups.length) →
        (∀ ps ∈ products, ps.lookups.length = cs.lookups.length) →
        (∀ p ∈ assemble columns permuted products, Shape d cs p) →
      ∃ Y : Finset F, Y.card ≤ columns.length * numExpressions cs - 1 ∧ ∀ y ∉ Y,
        ∀ pieces : List (List F), pieces.length = d.quotientPolyDegree →
        (∀ q ∈ pieces, q.length = d.n) →
      ∃ Xs : Finset F, Xs.card < d.n * (d.quotientPolyDegree + 1) ∧ ∀ x ∉ Xs,
        ¬ Accepts threads d cs delta ⟨theta, beta, gamma, y⟩ pk
          (assemble columns permuted products) pieces x := by
  obtain ⟨hpl, hpn⟩ := Verif.Permutation.permPolys_length d.omega delta
    (Verif.Permutation.keyMapping cs.permutation d.n calls)
  obtain ⟨i, hi, rfl⟩ := List.getElem_of_mem hw
  obtain ⟨Θ, hΘ, h1⟩ := rows_sound hd hr hbf hwidth hdelta hT hm fv calls hrows _ hbad
  refine ⟨Θ, hΘ, fun theta hth permuted => ?_⟩
  obtain ⟨B, hB, h2⟩ := h1 theta hth
    ((permuted.getD i []).map fun a => (rows d a.1, rows d a.2))
  refine ⟨B, hB, fun beta hb => ?_⟩
  obtain ⟨G, hG, h3⟩ := h2 beta hb
  refine ⟨G, hG, fun gamma hg products l1 l2 l3 l4 hs => ?_⟩
  have hmem := assemble_get (columns := columns) (permuted := permuted) (products := products) i hi
    (by omega) (by omega)
  have hl : (assemble columns permuted products).length = columns.length := by
    simp [assemble, l1, l2]
  obtain ⟨Y, hY, h4⟩ := xy_sound hd ht hdeg hr hbf delta theta beta gamma hfl hf hpl hpn hpk
    (assemble columns permuted products) hs _ hmem (by
      have := h3 gamma hg (products[i].permutation.map (rows d)) (products[i].lookups.map (rows d))
        (by
          rw [List.length_map, List.getD_eq_getElem _ _ (by omega)]
          exact l3 _ (List.getElem_mem _))
        (by rw [List.length_map]; exact l4 _ (List.getElem_mem _))
      rw [List.getD_eq_getElem _ _ (by omega), List.zip_map, List.map_map] at this
      rw [List.map_map]
      exact this)
  rw [hl] at hY
  exact ⟨Y, hY, h4⟩

/-! ## Counting, for an adaptive prover -/

theorem count_step {A : Type*} [Fintype F] [Fintype A] (S : Set (F × A)) (T : Finset F) (t k : ℕ)
    (hT : T.card ≤ t) (h : ∀ a ∉ T, {b | (a, b) ∈ S}.ncard ≤ k) :
    S.ncard ≤ t * Fintype.card A + Fintype.card F * k := by
  classical
  have hfin : ∀ a, ({b | (a, b) ∈ S}).Finite := fun a => Set.toFinite _
  let S' : Finset (F × A) := (T ×ˢ Finset.univ) ∪
    ((Finset.univ \ T).biUnion fun a => (hfin a).toFinset.image fun b => (a, b))
  have hsub : S ⊆ (S' : Set (F × A)) := by
    rintro ⟨a, b⟩ hab
    rw [Finset.mem_coe, Finset.mem_union]
    by_cases ha : a ∈ T
    · left; simp [ha]
    · right
      refine Finset.mem_biUnion.2 ⟨a, by simp [ha], Finset.mem_image.2 ⟨b, ?_, rfl⟩⟩
      simpa using hab
  refine (Set.ncard_le_ncard hsub S'.finite_toSet).trans ?_
  rw [Set.ncard_coe_finset]
  refine (Finset.card_union_le _ _).trans ?_
  refine Nat.add_le_add ?_ ?_
  · rw [Finset.card_product, Finset.card_univ]
    exact Nat.mul_le_mul_right _ hT
  · refine Finset.card_biUnion_le.trans ?_
    refine (Finset.sum_le_card_nsmul _ _ k ?_).trans ?_
    · intro a ha
      refine Finset.card_image_le.trans ?_
      rw [← Set.ncard_eq_toFinset_card]
      exact h a (Finset.mem_sdiff.1 ha).2
    · rw [smul_eq_mul]
      exact Nat.mul_le_mul_right _ ((Finset.card_le_card (Finset.subset_univ _)).trans
        (le_of_eq Finset.card_univ))

/-- **C50**, counted: over a finite field, a prover who has committed to columns violating a
constraint and who chooses every later message as any function of the challenges seen so far is
accepted for at most `errors·|F|⁴` of the `|F|⁵` challenge tuples. -/
theorem soundness_count [Fintype F] [DecidableEq F] {T : ℕ} (hd : d.Valid) {threads : ℕ}
    (ht : threads ≠ 0) (hdeg : cs.degree ≤ d.quotientPolyDegree + 1) (hr : Ready cs d.n)
    (hbf : cs.blindingFactors + 1 < d.n)
    (hwidth : ∀ l ∈ cs.lookups, l.input.length = l.table.length) {delta : F}
    (hdelta : IsPrimitiveRoot delta T) (hT : Nat.Coprime d.n T) (hm : cs.permutation.length ≤ T)
    {fv : List (List F)} (hfl : fv.length = cs.numFixed) (hf : ∀ v ∈ fv, v.length = d.n)
    (calls : List (Verif.Copy.Call Column))
    (hrows : ∀ c ∈ calls, c.leftRow < d.n - (cs.blindingFactors + 1) ∧
      c.rightRow < d.n - (cs.blindingFactors + 1)) {pk : Pk F}
    (hpk : keygenPk threads d cs.blindingFactors fv (permsOf d cs delta calls) = some pk)
    (columns : List (Columns F)) (w : Columns F) (hw : w ∈ columns)
    (hbad : Violates d cs fv calls (circuitOf d w.advice w.inst))
    (permuted : F → List (List (List F × List F))) (products : F → F → F → List (Products F))
    (pieces : F → F → F → F → List (List F))
    (l1 : ∀ θ, (permuted θ).length = columns.length)
    (l2 : ∀ θ β γ, (products θ β γ).length = columns.length)
    (l3 : ∀ θ, ∀ ps ∈ permuted θ, ps.length = cs.lookups.length)
    (l4 : ∀ θ β γ, ∀ ps ∈ products θ β γ, ps.lookups.length = cs.lookups.length)
    (hs : ∀ θ β γ, ∀ p ∈ assemble columns (permuted θ) (products θ β γ), Shape d cs p)
    (hq : ∀ θ β γ y, (pieces θ β γ y).length = d.quotientPolyDegree ∧
      ∀ q ∈ pieces θ β γ y, q.length = d.n) :
    {c : F × F × F × F × F | Accepts threads d cs delta ⟨c.1, c.2.1, c.2.2.1, c.2.2.2.1⟩ pk
        (assemble columns (permuted c.1) (products c.1 c.2.1 c.2.2.1))
        (pieces c.1 c.2.1 c.2.2.1 c.2.2.2.1) c.2.2.2.2}.ncard
      ≤ ((maxWidth cs + 3 * cs.permutation.length + 4) * (d.n - (cs.blindingFactors + 1))
          + columns.length * numExpressions cs + d.n * (d.quotientPolyDegree + 1))
        * Fintype.card F ^ 4 := by
  set u := d.n - (cs.blindingFactors + 1) with hu
  set q := Fintype.card F with hqc
  obtain ⟨Θ, c1, h1⟩ := soundness hd ht hdeg hr hbf hwidth hdelta hT hm hfl hf calls hrows hpk
    columns w hw hbad
  refine (count_step _ Θ _ ((((cs.permutation.length + 2) * u
    + (2 * cs.permutation.length + 2) * u + (columns.length * numExpressions cs - 1)
    + d.n * (d.quotientPolyDegree + 1))) * q ^ 3) c1 ?_).trans ?_
  · intro θ hθ
    obtain ⟨B, c2, h2⟩ := h1 θ hθ (permuted θ)
    refine (count_step _ B _ (((2 * cs.permutation.length + 2) * u
      + (columns.length * numExpressions cs - 1) + d.n * (d.quotientPolyDegree + 1)) * q ^ 2) c2
      ?_).trans ?_
    · intro β hβ
      obtain ⟨G, c3, h3⟩ := h2 β hβ
      refine (count_step _ G _ (((columns.length * numExpressions cs - 1)
        + d.n * (d.quotientPolyDegree + 1)) * q) c3 ?_).trans ?_
      · intro γ hγ
        obtain ⟨Y, c4, h4⟩ := h3 γ hγ (products θ β γ) (l1 θ) (l2 θ β γ) (l3 θ) (l4 θ β γ)
          (hs θ β γ)
        refine (count_step _ Y _ (d.n * (d.quotientPolyDegree + 1)) c4 ?_).trans ?_
        · intro y hy
          obtain ⟨Xs, c5, h5⟩ := h4 y hy (pieces θ β γ y) (hq θ β γ y).1 (hq θ β γ y).2
          refine (Set.ncard_le_ncard (t := (Xs : Set F)) ?_ Xs.finite_toSet).trans ?_
          · intro x hx
            by_contra hc
            exact h5 x hc hx
          · rw [Set.ncard_coe_finset]; exact c5.le
        · exact le_of_eq (by ring)
      · simp only [Fintype.card_prod]
        exact le_of_eq (by ring)
    · simp only [Fintype.card_prod]
      exact le_of_eq (by ring)
  · simp only [Fintype.card_prod]
    have : columns.length * numExpressions cs - 1 ≤ columns.length * numExpressions cs := by omega
    calc _ = (maxWidth cs * u + ((cs.permutation.length + 2) * u
            + (2 * cs.permutation.length + 2) * u + (columns.length * numExpressions cs - 1)
            + d.n * (d.quotientPolyDegree + 1))) * q ^ 4 := by ring
      _ ≤ _ := by
        refine Nat.mul_le_mul_right _ ?_
        have e : (maxWidth cs + 3 * cs.permutation.length + 4) * u = maxWidth cs * u
          + (cs.permutation.length + 2) * u + (2 * cs.permutation.length + 2) * u := by ring
        omega

/-! ## The example circuit with a cell that is not a bit -/

section Example

open Verif.Domain (new)

/-- Advice column with the value 2 on row 2: gate `a·a - a` fails there. -/
def exBadRows : List (ZMod 97) := [1, 1, 2, 1, 0, 0, 1, 0]

/-- The hypotheses of `soundness` are met by the bad circuit, whatever else is committed. -/
example : ∃ (d : Domain (ZMod 97)) (pk : Pk (ZMod 97)) (p : List (ZMod 97)),
    new consts97 4 3 = some d ∧ keygenPk 2 d 5 exFixed (permsOf d exCs 35 exCalls) = some pk ∧
    rows d p = exBadRows ∧ d.n * (d.quotientPolyDegree + 1) = 32 ∧ numExpressions exCs = 9 ∧
    ∃ Θ : Finset (ZMod 97), Θ.card ≤ 0 ∧ ∀ theta ∉ Θ,
      ∀ permuted : List (List (List (ZMod 97) × List (ZMod 97))),
      ∃ B : Finset (ZMod 97), B.card ≤ 6 ∧ ∀ beta ∉ B,
      ∃ G : Finset (ZMod 97), G.card ≤ 8 ∧ ∀ gamma ∉ G, ∀ products : List (Products (ZMod 97)),
        permuted.length = 1 → products.length = 1 →
        (∀ ps ∈ permuted, ps.length = 1) → (∀ ps ∈ products, ps.lookups.length = 1) →
        (∀ p' ∈ assemble [⟨[p], []⟩] permuted products, Shape d exCs p') →
      ∃ Y : Finset (ZMod 97), Y.card ≤ 8 ∧ ∀ y ∉ Y, ∀ pieces : List (List (ZMod 97)),
        pieces.length = d.quotientPolyDegree → (∀ q ∈ pieces, q.length = d.n) →
      ∃ Xs : Finset (ZMod 97), Xs.card < 32 ∧ ∀ x ∉ Xs,
        ¬ Accepts 2 d exCs 35 ⟨theta, beta, gamma, y⟩ pk (assemble [⟨[p], []⟩] permuted products)
          pieces x := by
  obtain ⟨h1, h2⟩ := Verif.Domain.new_spec consts97 consts97_valid 4 3
  obtain ⟨d, hd⟩ := h2.2 (by decide)
  obtain ⟨hv, hk, hq, _, -⟩ := h1 d hd
  have hn : d.n = 8 := by rw [hv.n_eq, hk]; rfl
  have hq' : d.quotientPolyDegree = 3 := by omega
  obtain ⟨-, hpn⟩ := Verif.Permutation.permPolys_length d.omega 35
    (Verif.Permutation.keyMapping exCs.permutation d.n exCalls)
  obtain ⟨pk, fp, pp, p0, pB, pL, hpk, -⟩ := keygenPk_spec hv (threads := 2) (by decide)
    exCs.blindingFactors (by rw [ex_bf, hn]; decide) exFixed (permsOf d exCs 35 exCalls)
    (by rw [hn]; decide) hpn
  obtain ⟨p, -, -, hp⟩ := toCoeffs_spec hv 2 (by decide) exBadRows (by rw [hn]; rfl)
  have hT : IsPrimitiveRoot (35 : ZMod 97) 3 := consts97_valid.zeta
  have hnum : numExpressions exCs = 9 := by
    rw [numExpressions, ex_degree, Verif.Permutation.numSets]
    have : (Verif.Multicore.chunks (4 - 2) exCs.permutation).length = 1 := by
      simp [exCs, Verif.Multicore.chunks]
    rw [this]; rfl
  refine ⟨d, pk, p, hd, by rw [ex_bf] at hpk; exact hpk, hp, by rw [hn, hq'], hnum, ?_⟩
  have := soundness (T := 3) hv (threads := 2) (by decide) (cs := exCs)
    (by rw [ex_degree, hq']) (hn ▸ exReady) (by rw [ex_bf, hn]; decide) (by decide) hT
    (by rw [hn]; decide) (by decide) (fv := exFixed) rfl (by rw [hn]; decide) exCalls
    (by rw [hn, ex_bf]; decide) hpk [⟨[p], []⟩] _ (List.mem_singleton.2 rfl) (by
      left
      refine ⟨2, by rw [hn]; decide, _, List.mem_singleton.2 rfl, ?_⟩
      rw [hn, circuitOf, List.map_singleton, hp, List.map_nil]
      decide +kernel)
  rw [hnum, ex_bf, hn] at this
  rw [hq'] at this ⊢
  rw [hn]
  exact this

end Example

end Verif.Plonk
