import Mathlib.Algebra.BigOperators.Group.Finset.Basic
import Verif.Commit.Props
import Verif.Merkle.Binding

/-!
# Two openings of a commitment give a relation between the generators (C67)

In a group of prime order some relation between the generators always exists; what should be hard is
to find one.  The theorems therefore name the relation: it is computed from the two openings.
-/

namespace Verif.Commit

open Verif.Region Verif.Ecc Verif.Utilities Verif.Sinsemilla Verif.MulFixed

section

variable {F : Type} [Field F] [DecidableEq F] {b : F}

/-! ## Specification -/

/-- Coefficients of `Q`, of `R` and of the generators `S(0), S(1), ...`. -/
structure Coeffs where
  q : ℤ
  r : ℤ
  s : ℕ → ℤ

/-- A linear relation between the generators that is not trivial modulo the order of the group. -/
def Coeffs.IsRelation (c : Coeffs) (order N : ℕ) (gen : ℕ → Pt b) (Q R : Pt b) : Prop :=
  c.q • Q + c.r • R + ∑ v ∈ Finset.range N, c.s v • gen v = 0 ∧
  ¬ ((order : ℤ) ∣ c.q ∧ (order : ℤ) ∣ c.r ∧ ∀ v < N, (order : ℤ) ∣ c.s v)

/-- How often the hash of a message adds the generator `S(v)`, with doublings. -/
def coeff (ws : List ℕ) (v : ℕ) : ℤ := ws.foldl (fun acc w => 2 * acc + if w = v then 1 else 0) 0

/-- The difference (`σ = 1`) or the sum (`σ = -1`) of two commitments. -/
def combine (σ : ℤ) (ws : List ℕ) (r : ℕ) (ws' : List ℕ) (r' : ℕ) : Coeffs :=
  ⟨2 ^ ws.length - σ * 2 ^ ws'.length, r - σ * r', fun v => coeff ws v - σ * coeff ws' v⟩

/-- The difference of a hash and a generator. -/
def meet (ws : List ℕ) (w : ℕ) : Coeffs :=
  ⟨2 ^ ws.length, 0, fun v => coeff ws v - if w = v then 1 else 0⟩

/-! ## Hashes as linear combinations -/

theorem coeff_concat (ws : List ℕ) (w v : ℕ) :
    coeff (ws ++ [w]) v = 2 * coeff ws v + if w = v then 1 else 0 := by
  simp [coeff, List.foldl_append]

theorem coeff_bound (ws : List ℕ) (v : ℕ) : 0 ≤ coeff ws v ∧ coeff ws v < 2 ^ ws.length := by
  induction ws using List.reverseRecOn with
  | nil => simp [coeff]
  | append_singleton ws w ih =>
    rw [coeff_concat, List.length_append, List.length_singleton, pow_succ]
    split_ifs <;> omega

theorem sins_eq {gen : ℕ → Pt b} {Q : Pt b} {N : ℕ} {ws : List ℕ} (h : ∀ w ∈ ws, w < N) :
    sins gen Q ws = (2 ^ ws.length : ℤ) • Q + ∑ v ∈ Finset.range N, coeff ws v • gen v := by
  induction ws using List.reverseRecOn with
  | nil => simp [sins, coeff]
  | append_singleton ws w ih =>
    have hw : w < N := h w (by simp)
    have ih := ih fun w hw => h w (by simp [hw])
    have e : sins gen Q (ws ++ [w]) = sins gen Q ws + (sins gen Q ws + gen w) := by
      simp [sins, List.foldl_append]
    have e2 : ∑ v ∈ Finset.range N, coeff (ws ++ [w]) v • gen v
        = (2 : ℤ) • (∑ v ∈ Finset.range N, coeff ws v • gen v) + gen w := by
      simp only [coeff_concat, add_smul, mul_smul, Finset.sum_add_distrib, ← Finset.smul_sum]
      congr 1
      simp only [ite_smul, one_smul, zero_smul]
      rw [Finset.sum_ite_eq]
      rw [if_pos (Finset.mem_range.2 hw)]
    rw [e, e2, ih, List.length_append, List.length_singleton, pow_succ', mul_smul]
    simp only [two_zsmul]
    abel

/-- Messages of the same length with the same coefficients are equal. -/
theorem coeff_inj {ws ws' : List ℕ} (hlen : ws.length = ws'.length)
    (h : ∀ v, v ∈ ws ∨ v ∈ ws' → coeff ws v = coeff ws' v) : ws = ws' := by
  induction ws using List.reverseRecOn generalizing ws' with
  | nil => exact (List.length_eq_zero_iff.1 hlen.symm).symm
  | append_singleton ws w ih =>
    induction ws' using List.reverseRecOn with
    | nil => simp at hlen
    | append_singleton ws' w' _ =>
      have hw : w = w' := by
        by_contra hne
        have := h w (by simp)
        rw [coeff_concat, coeff_concat, if_pos rfl, if_neg (Ne.symm hne)] at this
        omega
      subst hw
      rw [ih (by simpa using hlen) fun v hv => ?_]
      have := h v (by rcases hv with hv | hv <;> simp [hv])
      rw [coeff_concat, coeff_concat] at this
      omega

/-! ## Binding -/

theorem not_dvd {q : ℕ} {x : ℤ} (h0 : x ≠ 0) (h1 : -(q : ℤ) < x) (h2 : x < q) : ¬ (q : ℤ) ∣ x := by
  intro hd
  rcases lt_or_gt_of_ne h0 with h | h
  · have := Int.le_of_dvd (by omega : (0 : ℤ) < -x) (Int.dvd_neg.2 hd)
    omega
  · have := Int.le_of_dvd h hd
    omega

theorem combine_zero {gen : ℕ → Pt b} {Q R : Pt b} {N : ℕ} {ws ws' : List ℕ}
    (hN : ∀ w ∈ ws, w < N) (hN' : ∀ w ∈ ws', w < N) {r r' : ℕ} {σ : ℤ}
    (h : sins gen Q ws + r • R = σ • (sins gen Q ws' + r' • R)) :
    (combine σ ws r ws' r').q • Q + (combine σ ws r ws' r').r • R +
      ∑ v ∈ Finset.range N, (combine σ ws r ws' r').s v • gen v = 0 := by
  rw [sins_eq hN, sins_eq hN'] at h
  simp only [combine, sub_smul, mul_smul, Finset.sum_sub_distrib, ← Finset.smul_sum, natCast_zsmul]
  rw [smul_add, smul_add] at h
  rw [← sub_eq_zero] at h
  rw [← h]
  abel

theorem specCommit_some {gen : ℕ → Pt b} {Q R c : Pt b} {ws : List ℕ} {r : ℕ}
    (h : (specHash gen Q ws).map (fun H => H + r • R) = some c) : sins gen Q ws + r • R = c := by
  obtain ⟨H, hH, rfl⟩ := Option.map_eq_some_iff.1 h
  rw [(specHash_some hH).1]

theorem combine_one_ne {q N : ℕ} {ws ws' : List ℕ} (hN : ∀ w ∈ ws, w < N) (hN' : ∀ w ∈ ws', w < N)
    (hq : 2 ^ ws.length < q) (hq' : 2 ^ ws'.length < q) {r r' : ℕ}
    (hne : ¬ (ws = ws' ∧ r ≡ r' [MOD q])) :
    ¬ ((q : ℤ) ∣ (combine 1 ws r ws' r').q ∧ (q : ℤ) ∣ (combine 1 ws r ws' r').r ∧
      ∀ v < N, (q : ℤ) ∣ (combine 1 ws r ws' r').s v) := by
  simp only [combine, one_mul]
  rintro ⟨d1, d2, d3⟩
  have e1 : (2 : ℤ) ^ ws.length < q := by exact_mod_cast hq
  have e2 : (2 : ℤ) ^ ws'.length < q := by exact_mod_cast hq'
  have p1 : (0 : ℤ) < 2 ^ ws.length := by positivity
  have p2 : (0 : ℤ) < 2 ^ ws'.length := by positivity
  have hlen : ws.length = ws'.length := by
    by_contra hl
    refine not_dvd ?_ ?_ ?_ d1
    · intro e
      have : (2 : ℤ) ^ ws.length = 2 ^ ws'.length := by omega
      have : 2 ^ ws.length = 2 ^ ws'.length := by exact_mod_cast this
      exact hl (Nat.pow_right_injective le_rfl this)
    · omega
    · omega
  refine hne ⟨coeff_inj hlen fun v hv => ?_, ?_⟩
  · have hv' : v < N := hv.elim (hN v) (hN' v)
    have b1 := coeff_bound ws v
    have b2 := coeff_bound ws' v
    by_contra hc
    exact not_dvd (sub_ne_zero.2 hc) (by omega) (by omega) (d3 v hv')
  · exact ((Nat.modEq_iff_dvd (n := q) (a := r') (b := r)).2 (by exact_mod_cast d2)).symm

/-- **C67** (specification).  From two different openings of a commitment one computes a relation
between the generators: the difference of the openings is one. -/
theorem commit_relation {gen : ℕ → Pt b} {Q R : Pt b} {q N : ℕ} {ws ws' : List ℕ}
    (hN : ∀ w ∈ ws, w < N) (hN' : ∀ w ∈ ws', w < N) (hq : 2 ^ ws.length < q)
    (hq' : 2 ^ ws'.length < q) {r r' : ℕ} {c c' : Pt b}
    (h : (specHash gen Q ws).map (fun H => H + r • R) = some c)
    (h' : (specHash gen Q ws').map (fun H => H + r' • R) = some c') (hc : c = c')
    (hne : ¬ (ws = ws' ∧ r ≡ r' [MOD q])) :
    (combine 1 ws r ws' r').IsRelation q N gen Q R := by
  refine ⟨combine_zero hN hN' ?_, combine_one_ne hN hN' hq hq' hne⟩
  rw [specCommit_some h, specCommit_some h', one_smul, hc]

/-- **C67** (specification), short commitments: the difference or the sum of the openings is a
relation. -/
theorem shortCommit_relation (hg : Good b) {gen : ℕ → Pt b} {Q R : Pt b} {q N : ℕ}
    {ws ws' : List ℕ} (hN : ∀ w ∈ ws, w < N) (hN' : ∀ w ∈ ws', w < N)
    (hq : 2 * 2 ^ ws.length < q) (hq' : 2 * 2 ^ ws'.length < q) {r r' : ℕ} {c c' : Pt b}
    (h : (specHash gen Q ws).map (fun H => H + r • R) = some c)
    (h' : (specHash gen Q ws').map (fun H => H + r' • R) = some c') (hc : (enc c).1 = (enc c').1)
    (hne : ¬ (ws = ws' ∧ r ≡ r' [MOD q])) :
    (combine 1 ws r ws' r').IsRelation q N gen Q R ∨
      (combine (-1) ws r ws' r').IsRelation q N gen Q R := by
  have hcase : c = c' ∨ c = -c' := by
    by_cases h0 : c = 0
    · subst h0
      left
      exact (enc_eq_zero hg (P := c') (y := (enc c').2) (by
        rw [enc_zero] at hc
        exact Prod.ext hc.symm rfl)).symm
    · by_cases h0' : c' = 0
      · subst h0'
        left
        exact enc_eq_zero hg (P := c) (y := (enc c).2) (by
          rw [enc_zero] at hc
          exact Prod.ext hc rfl)
      · exact (Mul.x_eq_iff hg (P := c) (Q := c') (by rw [Prod.mk.eta]) (by rw [Prod.mk.eta]) h0 h0').1 hc
  rcases hcase with hc | hc
  · exact .inl (commit_relation hN hN' (by omega) (by omega) h h' hc hne)
  · right
    refine ⟨combine_zero hN hN' ?_, fun hd => ?_⟩
    · rw [specCommit_some h, specCommit_some h', neg_smul, one_smul, hc]
    · have e1 : 2 * (2 : ℤ) ^ ws.length < q := by exact_mod_cast hq
      have e2 : 2 * (2 : ℤ) ^ ws'.length < q := by exact_mod_cast hq'
      have p1 : (0 : ℤ) < 2 ^ ws.length := by positivity
      have p2 : (0 : ℤ) < 2 ^ ws'.length := by positivity
      have hd := hd.1
      simp only [combine] at hd
      exact not_dvd (by omega) (by omega) (by omega) hd

/-- **C67** (specification), the exceptional case: an accumulator that meets a generator is a
relation. -/
theorem collides_relation {gen : ℕ → Pt b} {Q : Pt b} (R : Pt b) {q N : ℕ} {ws : List ℕ}
    (hN : ∀ w ∈ ws, w < N) (hq : 2 ^ ws.length < q) (h : Collides gen Q ws) :
    ∃ pre w post, ws = pre ++ w :: post ∧ (meet pre w).IsRelation q N gen Q R := by
  obtain ⟨pre, w, post, rfl, e⟩ := h
  refine ⟨pre, w, post, rfl, ?_, fun hd => ?_⟩
  · have hs := (specHash_some e).1
    rw [sins_eq (N := N) fun v hv => hN v (by simp [hv])] at hs
    simp only [meet, zero_smul, add_zero, sub_smul, Finset.sum_sub_distrib, ite_smul, one_smul]
    rw [Finset.sum_ite_eq, if_pos (Finset.mem_range.2 (hN w (by simp)))]
    rw [hs]
    abel
  · have hd := hd.1
    simp only [meet] at hd
    have p1 : (0 : ℤ) < 2 ^ pre.length := by positivity
    have hle : 2 ^ pre.length ≤ 2 ^ (pre ++ w :: post).length :=
      Nat.pow_le_pow_right (by norm_num) (by simp)
    have e1 : (2 : ℤ) ^ pre.length < q := by exact_mod_cast lt_of_le_of_lt hle hq
    exact not_dvd (by omega) (by omega) e1 hd

end

/-! ## Two satisfying assignments -/

variable {C S : Type} {p q : ℕ} [Fact p.Prime] [Fact q.Prime] {b : ZMod p}

/-- The words in the cells of a message. -/
def cellWords (K : ℕ) (G : Grid C (ZMod p)) (message : List (Piece C (ZMod p))) : List ℕ :=
  message.flatMap fun P => digitsOf K P.numWords (G.at P.cell.cell).val

theorem cellWords_lt {K : ℕ} {G : Grid C (ZMod p)} {message : List (Piece C (ZMod p))} {w : ℕ}
    (h : w ∈ cellWords K G message) : w < 2 ^ K := by
  obtain ⟨P, -, hw⟩ := List.mem_flatMap.1 h
  obtain ⟨i, -, rfl⟩ := List.mem_map.1 hw
  exact Nat.mod_lt _ (by positivity)

theorem cellWords_length (K : ℕ) (G : Grid C (ZMod p)) (message : List (Piece C (ZMod p))) :
    (cellWords K G message).length = (message.map Piece.numWords).sum := by
  simp [cellWords, List.length_flatMap, digitsOf]

/-- The words determine the contents of the cells. -/
theorem cellWords_inj {K : ℕ} {G G' : Grid C (ZMod p)} {message message' : List (Piece C (ZMod p))}
    (hn : message.map Piece.numWords = message'.map Piece.numWords)
    (h1 : ∀ P ∈ message, (G.at P.cell.cell).val < 2 ^ (K * P.numWords))
    (h2 : ∀ P ∈ message', (G'.at P.cell.cell).val < 2 ^ (K * P.numWords))
    (h : cellWords K G message = cellWords K G' message') :
    message.map (fun P => G.at P.cell.cell) = message'.map fun P => G'.at P.cell.cell := by
  induction message generalizing message' with
  | nil =>
    cases message' with
    | nil => rfl
    | cons _ _ => simp at hn
  | cons P message ih =>
    cases message' with
    | nil => simp at hn
    | cons P' message' =>
      rw [List.map_cons, List.map_cons, List.cons.injEq] at hn
      unfold cellWords at h
      rw [List.flatMap_cons, List.flatMap_cons] at h
      obtain ⟨e1, e2⟩ := List.append_inj h (by simp [digitsOf, hn.1])
      rw [List.map_cons, List.map_cons, ih hn.2 (fun P hP => h1 P (List.mem_cons_of_mem _ hP))
        (fun P hP => h2 P (List.mem_cons_of_mem _ hP)) e2]
      congr 1
      have v1 := digitsOf_value K _ _ (h1 P (List.mem_cons_self ..))
      have v2 := digitsOf_value K _ _ (h2 P' (List.mem_cons_self ..))
      rw [e1, v2] at v1
      exact (ZMod.val_injective p v1).symm

/-- The scalar in the cells of the windows. -/
def cellScalar (G : Grid C (ZMod p)) (windows : List (ACell C (ZMod p))) : ℕ :=
  Nat.ofDigits 8 (windows.map fun x => (G.at x.cell).val)

theorem value_ofDigits (d : ℕ → ℕ) (n : ℕ) : Nat.ofDigits 8 ((List.range n).map d) = value d n := by
  induction n with
  | zero => rfl
  | succ n ih =>
    rw [List.range_succ, List.map_append, Nat.ofDigits_append, ih]
    simp [value, Nat.ofDigits_singleton, mul_comm]

theorem cellScalar_eq (hp : 8 ≤ p) {G : Grid C (ZMod p)} {windows : List (ACell C (ZMod p))}
    {d : ℕ → ℕ} {n : ℕ} (hd : ∀ i < n, d i < 8)
    (h : windows.map (fun x => G.at x.cell) = (List.range n).map fun i => (d i : ZMod p)) :
    cellScalar G windows = value d n := by
  rw [← value_ofDigits, cellScalar]
  congr 1
  have e : windows.map (fun x => (G.at x.cell).val) = (windows.map fun x => G.at x.cell).map ZMod.val := by
    rw [List.map_map]; rfl
  rw [e, h, List.map_map]
  refine List.map_congr_left fun i hi => ?_
  have := hd i (List.mem_range.1 hi)
  rw [Function.comp_apply, ZMod.val_natCast, Nat.mod_eq_of_lt (by omega)]

/-- What a run of `commit` and an assignment have to do with each other: the assignment satisfies the
constraints in the regions of the run, and the windows of the scalar are in the cells `windows`. -/
structure Satisfies (reprBits K : ℕ) (gen : ℕ → Pt b) (cfg : Sinsemilla.Config C S)
    (ecc : FullWidth.Config C S) (Q : Pt b) (R : FixedPoint b) (message : List (Piece C (ZMod p)))
    (r : ZMod q) (windows : List (ACell C (ZMod p))) (c : EccPoint C (ZMod p))
    (G : Grid C (ZMod p)) : Prop where
  ne : message ≠ []
  small : ∀ P ∈ message, 2 ^ (K * P.numWords) ≤ p
  run : ∃ zs n n' ops tot,
    commit reprBits K (fun w => enc (gen w)) cfg ecc Q R message r n = some ((c, zs), n', ops) ∧
    (∃ blind m o, FullWidth.assign ecc r R n = some ((blind, windows), m, o)) ∧
    PartOf ops tot n n' ∧ Sat (Sinsemilla.gates cfg) G tot ∧ Sat (FullWidth.gates b ecc) G tot ∧
    ∀ reg, SatLookup (Sinsemilla.lookup K (fun w => enc (gen w)) cfg) G tot reg

/-- The output of a satisfying assignment is the commitment to the contents of the cells. -/
theorem Satisfies.opens {reprBits K : ℕ} (hg : Good b) (hK : 5 ≤ K) (hp : 8 ≤ p) {gen : ℕ → Pt b}
    (hgen0 : ∀ w < 2 ^ K, gen w ≠ 0) {cfg : Sinsemilla.Config C S} {ecc : FullWidth.Config C S}
    {Q : Pt b} {R : FixedPoint b} (hR : Large R.generator numWindows) (hv : R.Valid numWindows)
    {message : List (Piece C (ZMod p))} {r : ZMod q} {windows : List (ACell C (ZMod p))}
    {c : EccPoint C (ZMod p)} {G : Grid C (ZMod p)}
    (h : Satisfies reprBits K gen cfg ecc Q R message r windows c G) :
    (∀ P ∈ message, (G.at P.cell.cell).val < 2 ^ (K * P.numWords)) ∧
    (Collides gen Q (cellWords K G message) ∨
      ∃ c', specCommit gen Q R.generator (cellWords K G message) (cellScalar G windows) = some c' ∧
        Holds G c c') := by
  obtain ⟨zs, n, n', ops, tot, hrun, ⟨blind, m, o, hw⟩, hpart, hs, he, hl⟩ := h.run
  obtain ⟨b1, d, hd, ⟨blind', windows', m', o', hw', hd'⟩, hc⟩ :=
    commit_sound hg hK hgen0 hR hv h.ne h.small hrun hpart hs he hl
  rw [hw] at hw'
  cases hw'
  rw [cellScalar_eq hp hd hd']
  exact ⟨b1, hc⟩

/-- **C67.** Two assignments, of the same circuit or of different ones, that satisfy the constraints
of `commit` and hold the same point in the output cells, hold the same message and blinding factors
that are equal modulo the order of the group; or the contents of the cells give a relation between the
generators. -/
theorem commit_binding {reprBits K : ℕ} (hg : Good b) (hK : 5 ≤ K) (hp : 8 ≤ p) {gen : ℕ → Pt b}
    (hgen0 : ∀ w < 2 ^ K, gen w ≠ 0) {cfg : Sinsemilla.Config C S} {ecc : FullWidth.Config C S}
    {Q : Pt b} {R : FixedPoint b} (hR : Large R.generator numWindows) (hv : R.Valid numWindows)
    {message message' : List (Piece C (ZMod p))}
    (hn : message.map Piece.numWords = message'.map Piece.numWords)
    (hq : 2 ^ (message.map Piece.numWords).sum < q) {r r' : ZMod q}
    {windows windows' : List (ACell C (ZMod p))}
    {c c' : EccPoint C (ZMod p)} {G G' : Grid C (ZMod p)}
    (h : Satisfies reprBits K gen cfg ecc Q R message r windows c G)
    (h' : Satisfies reprBits K gen cfg ecc Q R message' r' windows' c' G')
    (hx : G.at c.x.cell = G'.at c'.x.cell) (hy : G.at c.y.cell = G'.at c'.y.cell) :
    (message.map (fun P => G.at P.cell.cell) = message'.map (fun P => G'.at P.cell.cell) ∧
      cellScalar G windows ≡ cellScalar G' windows' [MOD q]) ∨
    (combine 1 (cellWords K G message) (cellScalar G windows) (cellWords K G' message')
      (cellScalar G' windows')).IsRelation q (2 ^ K) gen Q R.generator ∨
    ∃ pre w post, (cellWords K G message = pre ++ w :: post ∨
        cellWords K G' message' = pre ++ w :: post) ∧
      (meet pre w).IsRelation q (2 ^ K) gen Q R.generator := by
  obtain ⟨b1, hc⟩ := h.opens hg hK hp hgen0 hR hv
  obtain ⟨b2, hc'⟩ := h'.opens hg hK hp hgen0 hR hv
  have l1 : 2 ^ (cellWords K G message).length < q := by rw [cellWords_length]; exact hq
  have l2 : 2 ^ (cellWords K G' message').length < q := by rw [cellWords_length, ← hn]; exact hq
  rcases hc with hc | ⟨P, hP, hold⟩
  · obtain ⟨pre, w, post, e, hrel⟩ := collides_relation R.generator (fun w => cellWords_lt) l1 hc
    exact .inr (.inr ⟨pre, w, post, .inl e, hrel⟩)
  rcases hc' with hc' | ⟨P', hP', hold'⟩
  · obtain ⟨pre, w, post, e, hrel⟩ := collides_relation R.generator (fun w => cellWords_lt) l2 hc'
    exact .inr (.inr ⟨pre, w, post, .inr e, hrel⟩)
  by_cases heq : cellWords K G message = cellWords K G' message' ∧
      cellScalar G windows ≡ cellScalar G' windows' [MOD q]
  · exact .inl ⟨cellWords_inj hn b1 b2 heq.1, heq.2⟩
  · refine .inr (.inl (commit_relation (fun w => cellWords_lt) (fun w => cellWords_lt) l1 l2 hP hP' ?_
      heq))
    exact enc_injective hg (hold.trans ((Prod.ext hx hy : (_, _) = (_, _)).trans hold'.symm))

/-- **C67**, short commitments: the output cell holds the x-coordinate only. -/
theorem shortCommit_binding {reprBits K : ℕ} (hg : Good b) (hK : 5 ≤ K) (hp : 8 ≤ p) {gen : ℕ → Pt b}
    (hgen0 : ∀ w < 2 ^ K, gen w ≠ 0) {cfg : Sinsemilla.Config C S} {ecc : FullWidth.Config C S}
    {Q : Pt b} {R : FixedPoint b} (hR : Large R.generator numWindows) (hv : R.Valid numWindows)
    {message message' : List (Piece C (ZMod p))}
    (hn : message.map Piece.numWords = message'.map Piece.numWords)
    (hq : 2 * 2 ^ (message.map Piece.numWords).sum < q) {r r' : ZMod q}
    {windows windows' : List (ACell C (ZMod p))}
    {c c' : EccPoint C (ZMod p)} {G G' : Grid C (ZMod p)}
    (h : Satisfies reprBits K gen cfg ecc Q R message r windows c G)
    (h' : Satisfies reprBits K gen cfg ecc Q R message' r' windows' c' G')
    (hx : G.at c.x.cell = G'.at c'.x.cell) :
    (message.map (fun P => G.at P.cell.cell) = message'.map (fun P => G'.at P.cell.cell) ∧
      cellScalar G windows ≡ cellScalar G' windows' [MOD q]) ∨
    (∃ σ, (σ = 1 ∨ σ = -1) ∧
      (combine σ (cellWords K G message) (cellScalar G windows) (cellWords K G' message')
        (cellScalar G' windows')).IsRelation q (2 ^ K) gen Q R.generator) ∨
    ∃ pre w post, (cellWords K G message = pre ++ w :: post ∨
        cellWords K G' message' = pre ++ w :: post) ∧
      (meet pre w).IsRelation q (2 ^ K) gen Q R.generator := by
  obtain ⟨b1, hc⟩ := h.opens hg hK hp hgen0 hR hv
  obtain ⟨b2, hc'⟩ := h'.opens hg hK hp hgen0 hR hv
  have l1 : 2 * 2 ^ (cellWords K G message).length < q := by rw [cellWords_length]; exact hq
  have l2 : 2 * 2 ^ (cellWords K G' message').length < q := by rw [cellWords_length, ← hn]; exact hq
  have l1' : 2 ^ (cellWords K G message).length < q := by omega
  have l2' : 2 ^ (cellWords K G' message').length < q := by omega
  rcases hc with hc | ⟨P, hP, hold⟩
  · obtain ⟨pre, w, post, e, hrel⟩ := collides_relation R.generator (fun w => cellWords_lt) l1' hc
    exact .inr (.inr ⟨pre, w, post, .inl e, hrel⟩)
  rcases hc' with hc' | ⟨P', hP', hold'⟩
  · obtain ⟨pre, w, post, e, hrel⟩ := collides_relation R.generator (fun w => cellWords_lt) l2' hc'
    exact .inr (.inr ⟨pre, w, post, .inr e, hrel⟩)
  by_cases heq : cellWords K G message = cellWords K G' message' ∧
      cellScalar G windows ≡ cellScalar G' windows' [MOD q]
  · exact .inl ⟨cellWords_inj hn b1 b2 heq.1, heq.2⟩
  · rcases shortCommit_relation hg (fun w => cellWords_lt) (fun w => cellWords_lt) l1 l2 hP hP' (by
      rw [congrArg Prod.fst hold, congrArg Prod.fst hold']; exact hx) heq with e | e
    · exact .inr (.inl ⟨1, .inl rfl, e⟩)
    · exact .inr (.inl ⟨-1, .inr rfl, e⟩)

/-! ## Merkle roots -/

/-- Messages that break Sinsemilla, explicitly. -/
theorem breaks_relation (hg : Good b) {gen : ℕ → Pt b} {Q : Pt b} (R : Pt b) {N : ℕ} {m m' : List ℕ}
    (hN : ∀ w ∈ m, w < N) (hN' : ∀ w ∈ m', w < N) (hq : 2 * 2 ^ m.length < q)
    (hq' : 2 * 2 ^ m'.length < q) (h : Merkle.Breaks gen Q m m') :
    (∃ σ, (σ = 1 ∨ σ = -1) ∧ (combine σ m 0 m' 0).IsRelation q N gen Q R) ∨
    ∃ pre w post, (m = pre ++ w :: post ∨ m' = pre ++ w :: post) ∧
      (meet pre w).IsRelation q N gen Q R := by
  have l1 : 2 ^ m.length < q := by omega
  have l2 : 2 ^ m'.length < q := by omega
  rcases h with ⟨hne, P, P', hP, hP', hx⟩ | h | h
  · left
    rcases shortCommit_relation (R := R) hg hN hN' hq hq' (r := 0) (r' := 0) (c := P) (c' := P')
      (by rw [hP]; simp) (by rw [hP']; simp) hx (fun e => hne e.1) with e | e
    · exact ⟨1, .inl rfl, e⟩
    · exact ⟨-1, .inr rfl, e⟩
  · obtain ⟨pre, w, post, e, hr⟩ := collides_relation R hN l1 h
    exact .inr ⟨pre, w, post, .inl e, hr⟩
  · obtain ⟨pre, w, post, e, hr⟩ := collides_relation R hN' l2 h
    exact .inr ⟨pre, w, post, .inr e, hr⟩

/-- **C67**, Merkle roots: from two different openings of a root at the same position one computes a
relation between the generators. -/
theorem root_relation (hg : Good b) {gen : ℕ → Pt b} {Q : Pt b} (R : Pt b) (hq : 2 ^ 53 < q) {l : ℕ}
    {node node' root : ZMod p} {path path' : List (ZMod p × Bool)} {ms ms' : List (List ℕ)}
    (h : Merkle.RootBy gen Q l node path root ms) (h' : Merkle.RootBy gen Q l node' path' root ms')
    (hpos : path.map Prod.snd = path'.map Prod.snd) :
    (node = node' ∧ path = path') ∨ ∃ (i : ℕ) (m m' : List ℕ), ms[i]? = some m ∧ ms'[i]? = some m' ∧
      ((∃ σ, (σ = 1 ∨ σ = -1) ∧ (combine σ m 0 m' 0).IsRelation q (2 ^ 10) gen Q R) ∨
        ∃ pre w post, (m = pre ++ w :: post ∨ m' = pre ++ w :: post) ∧
          (meet pre w).IsRelation q (2 ^ 10) gen Q R) := by
  refine (Merkle.root_binding h h' hpos).imp id ?_
  rintro ⟨i, m, m', e1, e2, hb⟩
  obtain ⟨a1, a2⟩ := h.length m (List.mem_of_getElem? e1)
  obtain ⟨b1, b2⟩ := h'.length m' (List.mem_of_getElem? e2)
  exact ⟨i, m, m', e1, e2, breaks_relation hg R a2 b2 (by rw [a1]; exact hq) (by rw [b1]; exact hq) hb⟩

end Verif.Commit
