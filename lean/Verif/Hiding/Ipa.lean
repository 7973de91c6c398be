import Verif.Ipa.Props

/-!
# Openings of the inner product argument hide the polynomial (C76)
-/

namespace Verif.Hiding

open Verif.Msm Verif.Transcript Verif.Multicore Verif.PolyArith Verif.Vanishing Verif.Ipa

section Run

variable {σ α β : Type}

/-- A run of two steps, split. -/
theorem bind_ok {x : StateT σ (Except Err) α} {f : α → StateT σ (Except Err) β} {s : σ} {b : β}
    {s' : σ} (h : (x >>= f) s = .ok (b, s')) :
    ∃ a s1, x s = .ok (a, s1) ∧ f a s1 = .ok (b, s') := by
  change (x s).bind _ = _ at h
  cases hx : x s with
  | error e => rw [hx] at h; cases h
  | ok r =>
    rw [hx] at h
    exact ⟨r.1, r.2, rfl, h⟩

/-- Two steps, joined. -/
theorem ok_bind {x : StateT σ (Except Err) α} {f : α → StateT σ (Except Err) β} {s s1 s' : σ} {a : α}
    {b : β} (h1 : x s = .ok (a, s1)) (h2 : f a s1 = .ok (b, s')) : (x >>= f) s = .ok (b, s') := by
  change (x s).bind _ = _
  rw [h1]
  exact h2

theorem panics_ok {x : Option α} {s s' : σ} {a : α}
    (h : (panics x : StateT σ (Except Err) α) s = .ok (a, s')) : x = some a ∧ s' = s := by
  cases x with
  | none => cases h
  | some b =>
    cases h
    exact ⟨rfl, rfl⟩

theorem ok_panics {x : Option α} {a : α} (h : x = some a) (s : σ) :
    (panics x : StateT σ (Except Err) α) s = .ok (a, s) := by
  subst h; rfl

theorem panics_bind_ok {x : Option α} {f : α → StateT σ (Except Err) β} {s s' : σ} {b : β}
    (h : ((panics x : StateT σ (Except Err) α) >>= f) s = .ok (b, s')) :
    ∃ a, x = some a ∧ f a s = .ok (b, s') := by
  obtain ⟨a, s1, h1, h2⟩ := bind_ok h
  obtain ⟨h3, rfl⟩ := panics_ok h1
  exact ⟨a, h3, h2⟩

end Run

variable {F K A : Type} [Field F] [DecidableEq F] [Field K] [LinearOrder K] [AddCommGroup A]
  [Module F A]

theorem squeeze_ok {e : Enc F K A} {s s' : WState F} {c : F} (h : W.squeeze e s = .ok (c, s')) :
    s'.trace = c :: s.trace := by
  unfold W.squeeze at h
  dsimp only at h
  split at h
  · cases h
  · cases h
    rfl

theorem writePoint_ok {e : Enc F K A} {s s' : WState F} {a : A} {u : Unit}
    (h : W.writePoint e a s = .ok (u, s')) : s'.trace = s.trace := by
  unfold W.writePoint at h
  obtain ⟨_, s1, h1, h2⟩ := bind_ok h
  cases h2
  unfold W.commonPoint at h1
  split at h1
  · cases h1
  · cases h1
    rfl

theorem writeScalar_ok {e : Enc F K A} {s s' : WState F} {a : F} {u : Unit}
    (h : W.writeScalar e a s = .ok (u, s')) : s'.trace = s.trace := by
  cases h
  rfl

theorem rounds_congr (threads : ℕ) (e : Enc F K A) (pr : Params A) (z : F) {rand rand' : ℕ → F × F}
    (m : ℕ) : ∀ (j : ℕ) (p b : List F) (g : List A) (f : F), (∀ i, j ≤ i → rand i = rand' i) →
    rounds threads e pr z rand m j p b g f = rounds threads e pr z rand' m j p b g f := by
  induction m with
  | zero => intros; rfl
  | succ m ih =>
    intro j p b g f h
    unfold rounds
    rw [h j le_rfl]
    simp only [ih (j + 1) _ _ _ _ fun i hi => h i (by omega)]

/-- The last coefficient of the rounds with the given challenges. -/
def last (us : List F) (p : List F) : F := dot p (sOf (us.map (·⁻¹)))

theorem dot_comm' (p q : List F) : dot p q = dot q p := by
  induction p generalizing q with
  | nil => cases q <;> simp [dot]
  | cons a p ih =>
    cases q with
    | nil => simp [dot]
    | cons b q => rw [dot_cons, dot_cons, ih, smul_eq_mul, smul_eq_mul, mul_comm]

theorem last_cons (u : F) (us p : List F) (m : ℕ) (hm : us.length = m) (hp : p.length = 2 ^ (m + 1)) :
    last us (List.zipWith (fun lo hi => lo + hi * u⁻¹) (p.take (2 ^ m)) (p.drop (2 ^ m))) =
      last (u :: us) p := by
  have hle : 2 ^ (m + 1) = 2 ^ m + 2 ^ m := by rw [pow_succ]; omega
  have h5 : List.zipWith (fun lo hi => lo + hi * u⁻¹) (p.take (2 ^ m)) (p.drop (2 ^ m))
      = List.zipWith (fun lo hi => lo + u⁻¹ • hi) (p.take (2 ^ m)) (p.drop (2 ^ m)) := by
    simp only [smul_eq_mul, mul_comm u⁻¹]
  unfold last
  rw [dot_comm', h5, dot_zipWith_right _ _ _ _ (by simp [sOf_length, hp, hm]; omega)
    (by simp [sOf_length, hp, hm]; omega), dot_comm' p, List.map_cons, dot_sOf_cons]
  simp [hm]

theorem rounds_hide {threads : ℕ} (ht : threads ≠ 0) {e : Enc F K A} {pr : Params A}
    (hw : ∀ a : A, ∃ r : F, r • pr.w = a) (hw0 : pr.w ≠ 0) (z : F) (rand : ℕ → F × F) (m : ℕ) :
    ∀ (j : ℕ) (p b : List F) (g : List A) (f : F) (st st' : WState F) (a : List F × F),
    p.length = 2 ^ m → b.length = 2 ^ m → g.length = 2 ^ m →
    rounds threads e pr z rand m j p b g f st = .ok (a, st') →
    ∃ us : List F, us.length = m ∧ st'.trace = us.reverse ++ st.trace ∧ (∀ u ∈ us, u ≠ 0) ∧
      ∀ (p2 : List F) (f2 : F), p2.length = 2 ^ m → last us p2 = last us p →
        dot p2 g + (z * dot p2 b) • pr.u + f2 • pr.w = dot p g + (z * dot p b) • pr.u + f • pr.w →
        ∃ rand2, rounds threads e pr z rand2 m j p2 b g f2 st = .ok (a, st') := by
  induction m with
  | zero =>
    intro j p b g f st st' a hp hb hg h
    cases h
    refine ⟨[], rfl, rfl, by simp, fun p2 f2 hp2 hl hi => ⟨rand, ?_⟩⟩
    obtain ⟨c, rfl⟩ := List.length_eq_one_iff.1 hp
    obtain ⟨c2, rfl⟩ := List.length_eq_one_iff.1 hp2
    have : c2 = c := by simpa [last, sOf, dot] using hl
    subst this
    have hf : f2 = f := by
      have := add_left_cancel hi
      by_contra hne
      have h0 : (f2 - f) • pr.w = 0 := by rw [sub_smul, this, sub_self]
      rcases smul_eq_zero.1 h0 with h0 | h0
      · exact hne (sub_eq_zero.1 h0)
      · exact hw0 h0
    subst hf
    rfl
  | succ m ih =>
    intro j p b g f st st' a hp hb hg h
    have hle : 2 ^ (m + 1) = 2 ^ m + 2 ^ m := by rw [pow_succ]; omega
    unfold rounds at h
    obtain ⟨l, h1, h⟩ := panics_bind_ok h
    rw [multiexp_eq _ _ (by simp [hp, hg]; omega)] at h1
    obtain ⟨r, h2, h⟩ := panics_bind_ok h
    rw [multiexp_eq _ _ (by simp [hp, hg]; omega)] at h2
    obtain ⟨vl, h3, h⟩ := panics_bind_ok h
    rw [computeInnerProduct_dot _ _ (by simp [hp, hb]; omega)] at h3
    obtain ⟨vr, h4, h⟩ := panics_bind_ok h
    rw [computeInnerProduct_dot _ _ (by simp [hp, hb]; omega)] at h4
    obtain ⟨l', h5, h⟩ := panics_bind_ok h
    rw [multiexp_eq _ _ (by simp)] at h5
    obtain ⟨r', h6, h⟩ := panics_bind_ok h
    rw [multiexp_eq _ _ (by simp)] at h6
    obtain ⟨_, s7, h7, h⟩ := bind_ok h
    obtain ⟨_, s8, h8, h⟩ := bind_ok h
    obtain ⟨u, s9, h9, h⟩ := bind_ok h
    obtain ⟨ui, h10, h⟩ := panics_bind_ok h
    have hu : u ≠ 0 := by rintro rfl; simp at h10
    have h10' := h10
    rw [if_neg hu] at h10'
    obtain rfl := Option.some.inj h10'
    obtain ⟨g', h11, h⟩ := panics_bind_ok h
    obtain ⟨g'', hg1, hg2⟩ := generatorCollapse_eq threads ht g u m hg
    obtain rfl : g'' = g' := by rw [h11] at hg1; exact (Option.some.inj hg1).symm
    have hb' : (List.zipWith (fun lo hi => lo + hi * u) (b.take (2 ^ m)) (b.drop (2 ^ m))).length
        = 2 ^ m := by simp [hb]; omega
    have hgl : (g''.take (2 ^ m)).length = 2 ^ m := by rw [hg2]; simp [hg]; omega
    obtain ⟨us, hus, htr, hne, hide⟩ := ih _ _ _ _ _ _ _ _ (by simp [hp]; omega) hb' hgl h
    obtain rfl := Option.some.inj h1
    obtain rfl := Option.some.inj h2
    obtain rfl := Option.some.inj h3
    obtain rfl := Option.some.inj h4
    obtain rfl := Option.some.inj h5
    obtain rfl := Option.some.inj h6
    refine ⟨u :: us, by simp [hus], ?_, ?_, ?_⟩
    · rw [htr, squeeze_ok h9, writePoint_ok h8, writePoint_ok h7]
      simp
    · intro v hv
      rcases List.mem_cons.1 hv with rfl | hv
      · exact hu
      · exact hne v hv
    · intro p2 f2 hp2 hl hi
      -- the blinding factors of this round absorb the differences of its cross terms
      obtain ⟨lr, hlr⟩ := hw (dot (p.drop (2 ^ m)) (g.take (2 ^ m)) +
        ((dot (p.drop (2 ^ m)) (b.take (2 ^ m)) * z) • pr.u + (rand j).1 • pr.w) -
        (dot (p2.drop (2 ^ m)) (g.take (2 ^ m)) +
          (dot (p2.drop (2 ^ m)) (b.take (2 ^ m)) * z) • pr.u))
      obtain ⟨rr, hrr⟩ := hw (dot (p.take (2 ^ m)) (g.drop (2 ^ m)) +
        ((dot (p.take (2 ^ m)) (b.drop (2 ^ m)) * z) • pr.u + (rand j).2 • pr.w) -
        (dot (p2.take (2 ^ m)) (g.drop (2 ^ m)) +
          (dot (p2.take (2 ^ m)) (b.drop (2 ^ m)) * z) • pr.u))
      have hL : dot (p2.drop (2 ^ m)) (g.take (2 ^ m)) +
          ((dot (p2.drop (2 ^ m)) (b.take (2 ^ m)) * z) • pr.u + lr • pr.w) =
          dot (p.drop (2 ^ m)) (g.take (2 ^ m)) +
          ((dot (p.drop (2 ^ m)) (b.take (2 ^ m)) * z) • pr.u + (rand j).1 • pr.w) := by
        rw [hlr]; abel
      have hR : dot (p2.take (2 ^ m)) (g.drop (2 ^ m)) +
          ((dot (p2.take (2 ^ m)) (b.drop (2 ^ m)) * z) • pr.u + rr • pr.w) =
          dot (p.take (2 ^ m)) (g.drop (2 ^ m)) +
          ((dot (p.take (2 ^ m)) (b.drop (2 ^ m)) * z) • pr.u + (rand j).2 • pr.w) := by
        rw [hrr]; abel
      have e1 := round_algebra u z (rand j).1 (rand j).2 f hu m p b g pr.u pr.w hp hb hg
      have e2 := round_algebra u z lr rr f2 hu m p2 b g pr.u pr.w hp2 hb hg
      dsimp only at e1 e2
      rw [hL, hR, hi, ← e1, ← hg2] at e2
      obtain ⟨rand2, hr2⟩ := hide
        (List.zipWith (fun lo hi => lo + hi * u⁻¹) (p2.take (2 ^ m)) (p2.drop (2 ^ m)))
        (f2 + lr * u⁻¹ + rr * u) (by simp [hp2]; omega)
        (by rw [last_cons u us p2 m hus hp2, last_cons u us p m hus hp, hl]) e2
      refine ⟨Function.update rand2 j (lr, rr), ?_⟩
      unfold rounds
      refine ok_bind (ok_panics (multiexp_eq _ _ (by simp [hp2, hg]; omega)) _) ?_
      refine ok_bind (ok_panics (multiexp_eq _ _ (by simp [hp2, hg]; omega)) _) ?_
      refine ok_bind (ok_panics (computeInnerProduct_dot _ _ (by simp [hp2, hb]; omega)) _) ?_
      refine ok_bind (ok_panics (computeInnerProduct_dot _ _ (by simp [hp2, hb]; omega)) _) ?_
      refine ok_bind (ok_panics (multiexp_eq _ _ (by simp)) _) ?_
      refine ok_bind (ok_panics (multiexp_eq _ _ (by simp)) _) ?_
      have hd : ∀ (a b : F), dot [a, b] [pr.u, pr.w] = a • pr.u + b • pr.w := fun a b => by
        simp [dot]
      rw [hd] at h7 h8
      refine ok_bind (a := ()) (s1 := s7) ?_ ?_
      · rw [Function.update_self, hd, hL]; exact h7
      refine ok_bind (a := ()) (s1 := s8) ?_ ?_
      · rw [Function.update_self, hd, hR]; exact h8
      refine ok_bind h9 ?_
      refine ok_bind (ok_panics h10 _) ?_
      refine ok_bind (ok_panics h11 _) ?_
      rw [Function.update_self, rounds_congr (rand' := rand2)]
      · exact hr2
      · intro i hi
        rw [Function.update_of_ne (by omega)]

theorem commit_eq {pr : Params A} (p : List F) (r : F) (h : p.length = pr.g.length) :
    pr.commit p r = some (dot p pr.g + r • pr.w) := by
  unfold Params.commit
  rw [Commitment.multiexp_append, if_pos h]

/-- The powers of the point that the folded powers of the last coefficient must avoid: round `i`
of `k` folds the coefficient of `X ^ 2 ^ (k - 1 - i)`. -/
def unlucky (x : F) (k : ℕ) : List F := (List.range k).map fun i => x ^ 2 ^ (k - 1 - i)

theorem sOf_pow (us : List F) (b : ℕ) (hb : b < us.length) :
    (sOf us).getD (2 ^ b) 0 = us.getD (us.length - 1 - b) 1 := by
  rw [sOf_getD _ _ (Nat.pow_lt_pow_right (by decide) hb), Finset.prod_eq_single b]
  · rw [if_pos (by simp), List.getD_eq_getElem?_getD, List.getElem?_reverse hb,
      List.getD_eq_getElem?_getD]
  · intro c _ hc
    rw [if_neg]
    rw [Nat.testBit_two_pow]
    simpa using fun h => hc h.symm
  · intro h; simp [hb] at h

theorem powersFrom_getD (x : F) (m i : ℕ) (c : F) (h : i < m) :
    (powersFrom x m c).getD i 0 = c * x ^ i := by
  induction m generalizing i c with
  | zero => omega
  | succ m ih =>
    cases i with
    | zero => simp [powersFrom]
    | succ i =>
      rw [powersFrom, List.getD_cons_succ, ih i _ (by omega), pow_succ']
      ring

theorem dot_sub (l m : List F) (g : List A) (h : l.length = m.length) :
    dot (l.zipWith (· - ·) m) g = dot l g - dot m g := by
  induction l generalizing m g with
  | nil => cases m <;> simp_all [dot]
  | cons a l ih =>
    cases m with
    | nil => simp at h
    | cons b m =>
      cases g with
      | nil => simp [dot]
      | cons c g =>
        simp only [List.zipWith_cons_cons, dot_cons, ih m g (by simpa using h)]
        module

/-- Unless the challenges are unlucky, some polynomial with the root `x` has a last coefficient
that is not zero. -/
theorem exists_mask (x : F) (us : List F) (h : us ≠ unlucky x us.length) :
    ∃ t : List F, t.length = 2 ^ us.length ∧ evalPolynomial t x = 0 ∧ dot t (sOf us) ≠ 0 := by
  obtain ⟨i, hi, hne⟩ : ∃ i, i < us.length ∧ us.getD i 1 ≠ x ^ 2 ^ (us.length - 1 - i) := by
    by_contra hc
    push Not at hc
    refine h (List.ext_getElem (by simp [unlucky]) fun i h1 h2 => ?_)
    have := hc i h1
    rw [List.getD_eq_getElem _ _ h1] at this
    simp [unlucky, this]
  set N := 2 ^ us.length
  have hb : 2 ^ (us.length - 1 - i) < N := Nat.pow_lt_pow_right (by decide) (by omega)
  set b := 2 ^ (us.length - 1 - i)
  have hb0 : 0 < b := by positivity
  have hdot : ∀ g : List F, g.length = N →
      dot ((List.range N).map fun j => if j = b then (1 : F) else if j = 0 then -x ^ b else 0) g =
        g.getD b 0 - x ^ b * g.getD 0 0 := by
    intro g hg
    rw [Commitment.dot_eq_sum _ _ N (by simp) hg]
    rw [← Finset.sum_subset (s₁ := {b, 0})]
    · rw [Finset.sum_pair (by omega)]
      simp only [List.getD_eq_getElem?_getD, List.getElem?_map, List.getElem?_range hb,
        List.getElem?_range (show 0 < N by omega)]
      simp [hb0.ne]
      ring
    · intro j hj
      simp only [Finset.mem_insert, Finset.mem_singleton] at hj
      simp only [Finset.mem_range]
      omega
    · intro j hj hj'
      simp only [Finset.mem_insert, Finset.mem_singleton, not_or, Finset.mem_range] at hj hj'
      simp [List.getD_eq_getElem?_getD, List.getElem?_range hj, hj'.1, hj'.2]
  refine ⟨(List.range N).map fun j => if j = b then (1 : F) else if j = 0 then -x ^ b else 0,
    by simp [N], ?_, ?_⟩
  rotate_left
  · rw [hdot _ (sOf_length us), sOf_pow _ _ (by omega), sOf_getD _ 0 (by positivity)]
    simp only [Nat.zero_testBit, Bool.false_eq_true, if_false, Finset.prod_const_one, mul_one]
    rw [show us.length - 1 - (us.length - 1 - i) = i by omega]
    exact sub_ne_zero.2 hne
  · have := dot_powersFrom ((List.range N).map fun j =>
      if j = b then (1 : F) else if j = 0 then -x ^ b else 0) x N 1 (by simp)
    rw [one_mul] at this
    rw [← this, hdot _ (powersFrom_length _ _ _), powersFrom_getD _ _ _ _ hb,
      powersFrom_getD _ _ _ _ (by omega)]
    simp

theorem subHead_some (l : List F) (x : F) (h : l ≠ []) : ∃ l', subHead l x = some l' := by
  cases l with
  | nil => exact absurd rfl h
  | cons a t => exact ⟨_, rfl⟩

theorem subHead_zero (l : List F) (h : l ≠ []) : subHead l 0 = some l := by
  cases l with
  | nil => exact absurd rfl h
  | cons a t => simp [subHead]

theorem eval_combine (s p : List F) (xi x : F) (h : s.length = p.length) :
    evalPolynomial (List.zipWith (· + ·) (s.map (· * xi)) p) x =
      xi * evalPolynomial s x + evalPolynomial p x := by
  rw [evalPolynomial_eq, toPoly_zipWith_add (by simp [h]), toPoly_map_mul,
    Polynomial.eval_add, Polynomial.eval_mul, ← evalPolynomial_eq, ← evalPolynomial_eq]
  simp [mul_comm]

theorem map_range_getD (l : List F) : (List.range l.length).map (fun i => l.getD i 0) = l := by
  apply List.ext_getElem
  · simp
  · intro i h1 h2
    rw [List.getElem_map, List.getElem_range, List.getD_eq_getElem _ _ h2]

/-- **C76.** An opening of the inner product argument hides the polynomial: take any run of the
prover, with challenges such that `ξ ≠ 0` and the round challenges are not the one unlucky list
(the inverses of `x^(2^(k-1)), …, x², x`).  Then any other polynomial and blinding factor with the
same commitment and the same value at `x` have random choices with which the prover writes the same
proof to the same transcript. -/
theorem ipa_hiding {threads : ℕ} (ht : threads ≠ 0) {e : Enc F K A} {pr : Params A}
    (hpr : ParamsOk pr) (hw : ∀ a : A, ∃ r : F, r • pr.w = a) (hw0 : pr.w ≠ 0)
    {rand : Random F} {p : List F} {r x : F} {st st' : WState F}
    (h : createProof threads e pr rand p r x st = .ok ((), st')) :
    ∃ (xi z : F) (us : List F), us.length = pr.k ∧
      st'.trace = us.reverse ++ z :: xi :: st.trace ∧
      (xi ≠ 0 → us.map (·⁻¹) ≠ unlucky x pr.k →
        ∀ (p2 : List F) (r2 : F), pr.commit p2 r2 = pr.commit p r →
          evalPolynomial p2 x = evalPolynomial p x →
          ∃ rand2, createProof threads e pr rand2 p2 r2 x st = .ok ((), st')) := by
  have hn : 0 < pr.n := hpr.ok.pos
  unfold createProof at h
  obtain ⟨_, hlen, h⟩ := panics_bind_ok h
  split_ifs at hlen with hpn
  obtain ⟨sP, hsP, h⟩ := panics_bind_ok h
  obtain ⟨sC, hsC, h⟩ := panics_bind_ok h
  obtain ⟨hs1, hs2, -⟩ := subHead_spec (A := A) _ _ _ hsP
  simp only [List.length_map, List.length_range] at hs1
  have hs0 : evalPolynomial sP x = 0 := by rw [hs2, sub_self]
  rw [commit_eq _ _ (by rw [hs1, hpn, hpr.g_len])] at hsC
  obtain rfl := Option.some.inj hsC
  obtain ⟨_, s1, h1, h⟩ := bind_ok h
  obtain ⟨xi, s2, h2, h⟩ := bind_ok h
  obtain ⟨z, s3, h3, h⟩ := bind_ok h
  have hsne : sP ≠ [] := by intro h; rw [h] at hs1; simp at hs1; omega
  obtain ⟨sX, hsX, h⟩ := panics_bind_ok h
  rw [polyMul_eq threads ht _ hsne] at hsX
  obtain rfl := Option.some.inj hsX
  obtain ⟨pA, hpA, h⟩ := panics_bind_ok h
  rw [polyAdd_eq threads ht _ _ (by simpa using hsne) (by simp [hs1])] at hpA
  obtain rfl := Option.some.inj hpA
  obtain ⟨pP, hpP, h⟩ := panics_bind_ok h
  obtain ⟨hp1, hp2, hp3⟩ := subHead_spec (A := A) _ _ _ hpP
  have hp1' : pP.length = pr.n := by rw [hp1]; simp [hs1, hpn]
  obtain ⟨_, -, h⟩ := panics_bind_ok h
  obtain ⟨⟨pe, fe⟩, s4, h4, h⟩ := bind_ok h
  obtain ⟨us, hus, htr, hune, hide⟩ := rounds_hide ht hw hw0 z rand.round pr.k 0 pP
    (powersFrom x (2 ^ pr.k) 1) pr.g (rand.sBlind * xi + r) s3 s4 (pe, fe)
    (by rw [hp1', hpr.n_eq]) (powersFrom_length _ _ _) (by rw [hpr.g_len, hpr.n_eq]) h4
  have hs4 : st'.trace = s4.trace := by
    obtain ⟨_, -, h⟩ := panics_bind_ok h
    obtain ⟨_, -, h⟩ := panics_bind_ok h
    obtain ⟨_, s5, h5, h⟩ := bind_ok h
    rw [writeScalar_ok h, writeScalar_ok h5]
  refine ⟨xi, z, us, hus, ?_, ?_⟩
  · rw [hs4, htr, squeeze_ok h3, squeeze_ok h2, writePoint_ok h1]
  intro hxi hluck p2 r2 hcom hev
  have hgl : pr.g.length = 2 ^ pr.k := by rw [hpr.g_len, hpr.n_eq]
  have hp2n : p2.length = pr.n := by
    rw [commit_eq p r (by rw [hpn, hpr.g_len])] at hcom
    unfold Params.commit at hcom
    rw [Commitment.multiexp_append] at hcom
    split_ifs at hcom with hc
    rw [hc, hpr.g_len]
  rw [commit_eq p r (by rw [hpn, hpr.g_len]), commit_eq p2 r2 (by rw [hp2n, hpr.g_len])] at hcom
  have hcom := Option.some.inj hcom
  have hsl : sP.length = pr.n := by rw [hs1, hpn]
  obtain ⟨t, ht1, ht2, ht3⟩ := exists_mask x (us.map (·⁻¹)) (by simpa [hus] using hluck)
  rw [List.length_map, hus, ← hpr.n_eq] at ht1
  -- the masking polynomial is moved by a multiple of `t`
  obtain ⟨c, hc⟩ : ∃ c, xi * (c * last us t) = last us p - last us p2 :=
    ⟨(last us p - last us p2) / (xi * last us t), by
      have : last us t ≠ 0 := ht3
      field_simp⟩
  obtain ⟨sP2, hsP2⟩ : ∃ s, s = List.zipWith (· + ·) (t.map (· * c)) sP := ⟨_, rfl⟩
  have hsl2 : sP2.length = pr.n := by rw [hsP2]; simp [ht1, hsl]
  have hs02 : evalPolynomial sP2 x = 0 := by
    rw [hsP2, eval_combine _ _ _ _ (by rw [ht1, hsl]), ht2, hs0]; simp
  have hne2 : sP2 ≠ [] := by intro h; rw [h] at hsl2; simp at hsl2; omega
  obtain ⟨sb, hsb⟩ := hw (dot sP pr.g + rand.sBlind • pr.w - dot sP2 pr.g)
  have hlen2 : sP2.length = p2.length := by rw [hsl2, hp2n]
  have hz : List.zipWith (· + ·) (sP.map (· * xi)) p ≠ [] := by
    intro h; have := congrArg List.length h; simp [hsl, hpn] at this; omega
  have hz2 : List.zipWith (· + ·) (sP2.map (· * xi)) p2 ≠ [] := by
    intro h; have := congrArg List.length h; simp [hsl2, hp2n] at this; omega
  obtain ⟨pP2, hpP2⟩ := subHead_some (List.zipWith (· + ·) (sP2.map (· * xi)) p2)
    (evalPolynomial (List.zipWith (· + ·) (sP2.map (· * xi)) p2) x) hz2
  obtain ⟨hq1, hq2, hq3⟩ := subHead_spec (A := A) _ _ _ hpP2
  have hq1' : pP2.length = pr.n := by rw [hq1]; simp [hsl2, hp2n]
  have hq3' := (subHead_spec (A := F) _ _ _ hpP2).2.2
  have hp3' := (subHead_spec (A := F) _ _ _ hpP).2.2
  have hval : evalPolynomial (List.zipWith (· + ·) (sP2.map (· * xi)) p2) x =
      evalPolynomial (List.zipWith (· + ·) (sP.map (· * xi)) p) x := by
    rw [eval_combine _ _ _ _ hlen2, eval_combine _ _ _ _ hs1, hs0, hs02, hev]
  have hlast : last us pP2 = last us pP := by
    unfold last at hc ⊢
    rw [hq3', hp3', if_neg hz, if_neg hz2, hval,
      dot_zipWith_add _ _ _ (by simp [hlen2]), dot_zipWith_add _ _ _ (by simp [hs1]),
      dot_map_mul, dot_map_mul, hsP2, dot_zipWith_add _ _ _ (by simp [ht1, hsl]), dot_map_mul]
    simp only [smul_eq_mul]
    linear_combination hc
  have hroot : evalPolynomial pP x = 0 := by rw [hp2, sub_self]
  have hroot2 : evalPolynomial pP2 x = 0 := by rw [hq2, sub_self]
  obtain ⟨rand2, hr2⟩ := hide pP2 (sb * xi + r2) (by rw [hq1', hpr.n_eq]) hlast (by
    rw [dot_powersFrom _ _ _ _ (by rw [hq1', hpr.n_eq]),
      dot_powersFrom _ _ _ _ (by rw [hp1', hpr.n_eq]), hroot, hroot2, hq3, hp3, if_neg hz,
      if_neg hz2, hval, dot_zipWith_add _ _ _ (by simp [hlen2]),
      dot_zipWith_add _ _ _ (by simp [hs1]), dot_map_mul, dot_map_mul]
    have e1 : dot sP2 pr.g = dot sP pr.g + rand.sBlind • pr.w - sb • pr.w := by rw [hsb]; abel
    have e2 : dot p2 pr.g = dot p pr.g + r • pr.w - r2 • pr.w := by rw [← hcom]; abel
    rw [e1, e2]
    module)
  refine ⟨⟨fun i => sP2.getD i 0, sb, rand2⟩, ?_⟩
  unfold createProof
  refine ok_bind (ok_panics (if_pos hp2n) _) ?_
  dsimp only
  rw [← hlen2, map_range_getD, hs02]
  refine ok_bind (ok_panics (subHead_zero _ hne2) _) ?_
  refine ok_bind (ok_panics (commit_eq _ _ (by rw [hsl2, hpr.g_len])) _) ?_
  rw [hsb, add_sub_cancel]
  refine ok_bind h1 ?_
  refine ok_bind h2 ?_
  refine ok_bind h3 ?_
  refine ok_bind (ok_panics (polyMul_eq threads ht _ hne2 _) _) ?_
  refine ok_bind (ok_panics (polyAdd_eq threads ht _ _ (by simpa using hne2) (by simp [hlen2])) _) ?_
  refine ok_bind (ok_panics hpP2 _) ?_
  refine ok_bind (ok_panics (if_pos hq1') _) ?_
  refine ok_bind hr2 ?_
  exact h

end Verif.Hiding
