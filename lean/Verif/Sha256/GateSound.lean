import Verif.Sha256.Sigma

/-!
# The function gates of the SHA-256 chip are sound (C70)
-/

namespace Verif.Sha256

open Verif.Region Verif.Sha256.Spec Col

variable {F : Type} [Field F]

/-- The four spread outputs determine the even and odd bits. -/
theorem out_sound (hF : Big F) {r : ℕ} (hr : r < 2 ^ 64) {t0 e0 s0 t1 e1 s1 t2 e2 s2 t3 e3 s3 : F}
    (h0 : [t0, e0, s0] ∈ (table : List (List F))) (h1 : [t1, e1, s1] ∈ (table : List (List F)))
    (h2 : [t2, e2, s2] ∈ (table : List (List F))) (h3 : [t3, e3, s3] ∈ (table : List (List F)))
    (h : witness s0 s1 s2 s3 = (r : F)) :
    e0 = (evLo r : ℕ) ∧ e1 = (odLo r : ℕ) ∧ e2 = (evHi r : ℕ) ∧ e3 = (odHi r : ℕ) := by
  obtain ⟨k0, l0, -, rfl, rfl⟩ := (mem_table _ _ _).1 h0
  obtain ⟨k1, l1, -, rfl, rfl⟩ := (mem_table _ _ _).1 h1
  obtain ⟨k2, l2, -, rfl, rfl⟩ := (mem_table _ _ _).1 h2
  obtain ⟨k3, l3, -, rfl, rfl⟩ := (mem_table _ _ _).1 h3
  have b0 := spreadBits_lt 16 k0
  have b1 := spreadBits_lt 16 k1
  have b2 := spreadBits_lt 16 k2
  have b3 := spreadBits_lt 16 k3
  have hn : (spreadBits 16 k0 + 2 * spreadBits 16 k1)
      + 2 ^ 32 * (spreadBits 16 k2 + 2 * spreadBits 16 k3) = r := by
    refine hF.inj (by norm_num only at *; omega) (by norm_num only at *; omega) ?_
    rw [← h]
    unfold witness
    push_cast
    ring
  have q0 : slice r 0 32 = spreadBits 16 k0 + 2 * spreadBits 16 k1 := by
    simp only [slice, Nat.reducePow, Nat.reduceSub] at *; omega
  have q1 : slice r 32 64 = spreadBits 16 k2 + 2 * spreadBits 16 k3 := by
    simp only [slice, Nat.reducePow, Nat.reduceSub] at *; omega
  unfold evLo odLo evHi odHi
  rw [q0, q1, evenBits_spread _ _ _ l0, evenBits_spread _ _ _ l2, oddBits_spread _ _ _ l1,
    oddBits_spread _ _ _ l3]
  exact ⟨rfl, rfl, rfl, rfl⟩

theorem cat_append (l l' : List (ℕ × ℕ)) :
    cat (l ++ l') = cat l + 2 ^ (l.map Prod.fst).sum * cat l' := by
  induction l with
  | nil => simp [cat]
  | cons p l ih => simp only [List.cons_append, cat, ih, List.map_cons, List.sum_cons, pow_add]; ring

theorem cat_lt (l : List (ℕ × ℕ)) (h : ∀ p ∈ l, p.2 < 2 ^ p.1) :
    cat l < 2 ^ (l.map Prod.fst).sum := by
  induction l with
  | nil => simp [cat]
  | cons p l ih =>
    have h1 := h p (by simp)
    have h2 := ih fun q hq => h q (List.mem_cons_of_mem _ hq)
    simp only [cat, List.map_cons, List.sum_cons, pow_add]
    calc p.2 + 2 ^ p.1 * cat l < 2 ^ p.1 + 2 ^ p.1 * cat l := by omega
      _ = 2 ^ p.1 * (cat l + 1) := by ring
      _ ≤ _ := Nat.mul_le_mul_left _ h2

theorem slice_cat (l : List (ℕ × ℕ)) (n v : ℕ) (l' : List (ℕ × ℕ)) (h : ∀ p ∈ l, p.2 < 2 ^ p.1)
    (hv : v < 2 ^ n) {lo hi : ℕ} (hlo : lo = (l.map Prod.fst).sum) (hhi : hi = lo + n) :
    slice (cat (l ++ (n, v) :: l')) lo hi = v := by
  rw [cat_append, slice, hhi, hlo, Nat.add_sub_cancel_left]
  rw [Nat.add_mul_div_left _ _ (by positivity), Nat.div_eq_of_lt (cat_lt l h), Nat.zero_add, cat,
    Nat.add_mul_mod_self_left, Nat.mod_eq_of_lt hv]

theorem mem₂ {x y : F} : (∀ p ∈ [x, y], p = 0) ↔ x = 0 ∧ y = 0 := by simp

theorem all_append {l l' : List F} :
    (∀ p ∈ l ++ l', p = 0) ↔ (∀ p ∈ l, p = 0) ∧ ∀ p ∈ l', p = 0 := by
  simp only [List.mem_append, or_imp, forall_and]

/-- `lookup` with a tag bounded by the range check. -/
theorem tagged (hF : Big F) {t d s : F} (h : [t, d, s] ∈ (table : List (List F))) {upper bits : ℕ}
    (hu : (upper, bits) ∈ [(0, 7), (1, 10), (2, 11), (3, 13), (4, 14)])
    (hr : rangeCheck t 0 upper = 0) :
    ∃ k < 2 ^ bits, d = (k : ℕ) ∧ s = (spreadBits bits k : ℕ) := by
  obtain ⟨k, hk, rfl, rfl, rfl⟩ := (mem_table _ _ _).1 h
  have hb := (tag_bound hF hu hk).1 hr
  refine ⟨k, hb, rfl, ?_⟩
  rw [spreadBits_ext hb]
  simp only [List.mem_cons, Prod.mk.injEq, List.not_mem_nil, or_false] at hu
  omega

/-- `σ_0` on `W_1, …, W_13`. -/
theorem ls0_sound (hF : Big F) {a b c tC sc d tD sd word t0 e0 r0e t1 e1 r0o t2 e2 r1e t3 e3 r1o
      sa bLo sbLo bHi sbHi : F}
    (lC : [tC, c, sc] ∈ (table : List (List F))) (lD : [tD, d, sd] ∈ (table : List (List F)))
    (l0 : [t0, e0, r0e] ∈ (table : List (List F))) (l1 : [t1, e1, r0o] ∈ (table : List (List F)))
    (l2 : [t2, e2, r1e] ∈ (table : List (List F))) (l3 : [t3, e3, r1o] ∈ (table : List (List F)))
    (hd : ∀ p ∈ gDec1 a b c tC d tD word, p = 0)
    (hs : ∀ p ∈ gLs0 r0e r0o r1e r1o a sa b bLo sbLo bHi sbHi sc sd, p = 0) :
    ∃ w < 2 ^ 32, word = (w : ℕ) ∧ e0 = (evLo (rs0 w) : ℕ) ∧ e2 = (evHi (rs0 w) : ℕ) := by
  simp only [gDec1, List.mem_cons, List.not_mem_nil, or_false, forall_eq_or_imp, forall_eq] at hd
  obtain ⟨hw, hC, hD⟩ := hd
  obtain ⟨c, bc, rfl, rfl⟩ := tagged hF lC (upper := 2) (bits := 11) (by simp) hC
  obtain ⟨d, bd, rfl, rfl⟩ := tagged hF lD (upper := 4) (bits := 14) (by simp) hD
  unfold gLs0 at hs
  simp only [all_append, mem₂] at hs
  obtain ⟨⟨⟨h1, h2⟩, h3⟩, h4, h5⟩ := hs
  obtain ⟨x, bx, rfl, rfl⟩ := (twoBit_zero hF _ _).1 h1
  obtain ⟨y, yb, rfl, rfl⟩ := (twoBit_zero hF _ _).1 h2
  obtain ⟨a, ba, rfl, rfl⟩ := (threeBit_zero hF _ _).1 h3
  set w := cat [(3, a), (2, x), (2, y), (11, c), (14, d)] with hwdef
  have bnd : ∀ p ∈ [(3, a), (2, x), (2, y), (11, c), (14, d)], p.2 < 2 ^ p.1 := by
    simp only [List.mem_cons, List.not_mem_nil, or_false, forall_eq_or_imp, forall_eq]
    exact ⟨ba, bx, yb, bc, bd⟩
  have w32 : w < 2 ^ 32 := cat_lt _ bnd
  have sa : slice w 0 3 = a :=
    slice_cat [] 3 a _ (by simp) ba rfl rfl
  have sx : slice w 3 5 = x := slice_cat [(3, a)] 2 x _ (by simpa using ba) bx rfl rfl
  have sy : slice w 5 7 = y :=
    slice_cat [(3, a), (2, x)] 2 y _ (by simpa using ⟨ba, bx⟩) yb rfl rfl
  have sc : slice w 7 18 = c := slice_cat [(3, a), (2, x), (2, y)] 11 c _
    (by simpa using ⟨ba, bx, yb⟩) bc rfl rfl
  have sd : slice w 18 32 = d := slice_cat [(3, a), (2, x), (2, y), (11, c)] 14 d _
    (by simp only [List.mem_cons, List.not_mem_nil, or_false, forall_eq_or_imp, forall_eq]
        exact ⟨ba, bx, yb, bc⟩) bd rfl rfl
  have sb := spread_slices w (a := 3) (b := 5) (c := 7) (by norm_num) (by norm_num)
  norm_num only [sx, sy] at sb
  have e : word = (w : ℕ) := by
    rw [hwdef]; simp only [cat]; push_cast
    linear_combination -hw - h4 * 2 ^ 3
  have hr : witness r0e r0o r1e r1o = ((r1 w : ℕ) : F) := by
    simp only [r1, cat, sa, sc, sd, sb]
    push_cast
    linear_combination h5
  obtain ⟨q0, -, q2, -⟩ := out_sound hF (r1_lt w) l0 l1 l2 l3 hr
  rw [r1_eq w w32] at q0 q2
  exact ⟨w, w32, e, q0, q2⟩

/-- `σ_1` on `W_49, …, W_61`. -/
theorem ls1_sound (hF : Big F) {a tA sa b c d tD sd word t0 e0 r0e t1 e1 r0o t2 e2 r1e t3 e3 r1o
      bLo sbLo bMid sbMid bHi sbHi sc : F}
    (lA : [tA, a, sa] ∈ (table : List (List F))) (lD : [tD, d, sd] ∈ (table : List (List F)))
    (l0 : [t0, e0, r0e] ∈ (table : List (List F))) (l1 : [t1, e1, r0o] ∈ (table : List (List F)))
    (l2 : [t2, e2, r1e] ∈ (table : List (List F))) (l3 : [t3, e3, r1o] ∈ (table : List (List F)))
    (hd : ∀ p ∈ gDec3 a tA b c d tD word, p = 0)
    (hs : ∀ p ∈ gLs1 r0e r0o r1e r1o sa b bLo sbLo bMid sbMid bHi sbHi c sc sd, p = 0) :
    ∃ w < 2 ^ 32, word = (w : ℕ) ∧ e0 = (evLo (rs1 w) : ℕ) ∧ e2 = (evHi (rs1 w) : ℕ) := by
  simp only [gDec3, List.mem_cons, List.not_mem_nil, or_false, forall_eq_or_imp, forall_eq] at hd
  obtain ⟨hw, hA, hD⟩ := hd
  obtain ⟨a, ba, rfl, rfl⟩ := tagged hF lA (upper := 1) (bits := 10) (by simp) hA
  obtain ⟨d, bd, rfl, rfl⟩ := tagged hF lD (upper := 3) (bits := 13) (by simp) hD
  unfold gLs1 at hs
  simp only [all_append, mem₂] at hs
  obtain ⟨⟨⟨⟨h1, h2⟩, h3⟩, h3'⟩, h4, h5⟩ := hs
  obtain ⟨x, bx, rfl, rfl⟩ := (twoBit_zero hF _ _).1 h1
  obtain ⟨y, yb, rfl, rfl⟩ := (twoBit_zero hF _ _).1 h2
  obtain ⟨c, bc, rfl, rfl⟩ := (twoBit_zero hF _ _).1 h3
  obtain ⟨z, bz, rfl, rfl⟩ := (threeBit_zero hF _ _).1 h3'
  set w := cat [(10, a), (2, x), (2, y), (3, z), (2, c), (13, d)] with hwdef
  have bnd : ∀ p ∈ [(10, a), (2, x), (2, y), (3, z), (2, c), (13, d)], p.2 < 2 ^ p.1 := by
    simp only [List.mem_cons, List.not_mem_nil, or_false, forall_eq_or_imp, forall_eq]
    exact ⟨ba, bx, yb, bz, bc, bd⟩
  have w32 : w < 2 ^ 32 := cat_lt _ bnd
  have sub : ∀ l : List (ℕ × ℕ), l <+: [(10, a), (2, x), (2, y), (3, z), (2, c), (13, d)] →
      ∀ p ∈ l, p.2 < 2 ^ p.1 := fun l hl p hp => bnd p (hl.subset hp)
  have sa : slice w 0 10 = a := slice_cat [] 10 a _ (by simp) ba rfl rfl
  have sx : slice w 10 12 = x := slice_cat [(10, a)] 2 x _ (sub _ ⟨_, rfl⟩) bx rfl rfl
  have sy : slice w 12 14 = y := slice_cat [(10, a), (2, x)] 2 y _ (sub _ ⟨_, rfl⟩) yb rfl rfl
  have sz : slice w 14 17 = z :=
    slice_cat [(10, a), (2, x), (2, y)] 3 z _ (sub _ ⟨_, rfl⟩) bz rfl rfl
  have sc : slice w 17 19 = c :=
    slice_cat [(10, a), (2, x), (2, y), (3, z)] 2 c _ (sub _ ⟨_, rfl⟩) bc rfl rfl
  have sd : slice w 19 32 = d :=
    slice_cat [(10, a), (2, x), (2, y), (3, z), (2, c)] 13 d _ (sub _ ⟨_, rfl⟩) bd rfl rfl
  have sb := spread_slices w (a := 10) (b := 14) (c := 17) (by norm_num) (by norm_num)
  have sb' := spread_slices w (a := 10) (b := 12) (c := 14) (by norm_num) (by norm_num)
  norm_num only [sx, sy, sz] at sb sb'
  rw [sb'] at sb
  have e : word = (w : ℕ) := by
    rw [hwdef]; simp only [cat]; push_cast
    linear_combination -hw - h4 * 2 ^ 10
  have hr : witness r0e r0o r1e r1o = ((r3 w : ℕ) : F) := by
    simp only [r3, cat, sa, sc, sd, sb]
    push_cast
    linear_combination h5
  obtain ⟨q0, -, q2, -⟩ := out_sound hF (r3_lt w) l0 l1 l2 l3 hr
  rw [r3_eq w w32] at q0 q2
  exact ⟨w, w32, e, q0, q2⟩

/-- `σ_0` and `σ_1` on `W_14, …, W_48`, if the pieces `e` and `f` are bits. -/
theorem lsv2_sound (hF : Big F) {a b tB sb c d tD sd e f g tG sg word
      t0 e0 r0e t1 e1 r0o t2 e2 r1e t3 e3 r1o t0' e0' r0e' t1' e1' r0o' t2' e2' r1e' t3' e3' r1o'
      sa bLo sbLo bHi sbHi sc sa' bLo' sbLo' bHi' sbHi' sc' : F}
    (_lB : [tB, b, sb] ∈ (table : List (List F)))
    (lD : [tD, d, sd] ∈ (table : List (List F))) (lG : [tG, g, sg] ∈ (table : List (List F)))
    (l0 : [t0, e0, r0e] ∈ (table : List (List F))) (l1 : [t1, e1, r0o] ∈ (table : List (List F)))
    (l2 : [t2, e2, r1e] ∈ (table : List (List F))) (l3 : [t3, e3, r1o] ∈ (table : List (List F)))
    (l0' : [t0', e0', r0e'] ∈ (table : List (List F)))
    (l1' : [t1', e1', r0o'] ∈ (table : List (List F)))
    (l2' : [t2', e2', r1e'] ∈ (table : List (List F)))
    (l3' : [t3', e3', r1o'] ∈ (table : List (List F)))
    (he : e = 0 ∨ e = 1) (hf : f = 0 ∨ f = 1)
    (hd : ∀ p ∈ gDec2 a b c d tD e f g tG word, p = 0)
    (hs : ∀ p ∈ gLs0v2 r0e r0o r1e r1o a sa b bLo sbLo bHi sbHi c sc sd e f sg, p = 0)
    (hs' : ∀ p ∈ gLs1v2 r0e' r0o' r1e' r1o' a sa' b bLo' sbLo' bHi' sbHi' c sc' sd e f sg, p = 0) :
    ∃ w < 2 ^ 32, word = (w : ℕ) ∧ (e0 = (evLo (rs0 w) : ℕ) ∧ e2 = (evHi (rs0 w) : ℕ)) ∧
      e0' = (evLo (rs1 w) : ℕ) ∧ e2' = (evHi (rs1 w) : ℕ) := by
  simp only [gDec2, List.mem_cons, List.not_mem_nil, or_false, forall_eq_or_imp, forall_eq] at hd
  obtain ⟨hw, hG, hD⟩ := hd
  obtain ⟨g, bg, rfl, rfl⟩ := tagged hF lG (upper := 3) (bits := 13) (by simp) hG
  obtain ⟨d, bd, rfl, rfl⟩ := tagged hF lD (upper := 0) (bits := 7) (by simp) hD
  obtain ⟨e, be, rfl⟩ : ∃ k < 2 ^ 1, e = ((k : ℕ) : F) := by
    rcases he with rfl | rfl
    · exact ⟨0, by norm_num, by simp⟩
    · exact ⟨1, by norm_num, by simp⟩
  obtain ⟨f, bf, rfl⟩ : ∃ k < 2 ^ 1, f = ((k : ℕ) : F) := by
    rcases hf with rfl | rfl
    · exact ⟨0, by norm_num, by simp⟩
    · exact ⟨1, by norm_num, by simp⟩
  unfold gLs0v2 at hs
  unfold gLs1v2 at hs'
  simp only [all_append, mem₂] at hs hs'
  obtain ⟨⟨⟨⟨h1, h2⟩, h3⟩, h3'⟩, h4, h5⟩ := hs
  obtain ⟨⟨⟨⟨k1, k2⟩, k3⟩, k3'⟩, k4, k5⟩ := hs'
  obtain ⟨x, bx, rfl, rfl⟩ := (twoBit_zero hF _ _).1 h1
  obtain ⟨y, yb, rfl, rfl⟩ := (twoBit_zero hF _ _).1 h2
  obtain ⟨a, ba, rfl, rfl⟩ := (threeBit_zero hF _ _).1 h3
  obtain ⟨c, bc, rfl, rfl⟩ := (threeBit_zero hF _ _).1 h3'
  obtain ⟨x', bx', rfl, rfl⟩ := (twoBit_zero hF _ _).1 k1
  obtain ⟨y', yb', rfl, rfl⟩ := (twoBit_zero hF _ _).1 k2
  obtain ⟨a', ba', ea, rfl⟩ := (threeBit_zero hF _ _).1 k3
  obtain ⟨c', bc', ec, rfl⟩ := (threeBit_zero hF _ _).1 k3'
  obtain rfl : a = a' := hF.inj (by omega) (by omega) ea
  obtain rfl : c = c' := hF.inj (by omega) (by omega) ec
  have hxy : x + 2 ^ 2 * y = x' + 2 ^ 2 * y' := by
    refine hF.inj (by omega) (by omega) ?_
    push_cast
    linear_combination h4 - k4
  obtain rfl : x = x' := by omega
  obtain rfl : y = y' := by omega
  set w := cat [(3, a), (2, x), (2, y), (3, c), (7, d), (1, e), (1, f), (13, g)] with hwdef
  have bnd : ∀ p ∈ [(3, a), (2, x), (2, y), (3, c), (7, d), (1, e), (1, f), (13, g)],
      p.2 < 2 ^ p.1 := by
    simp only [List.mem_cons, List.not_mem_nil, or_false, forall_eq_or_imp, forall_eq]
    exact ⟨ba, bx, yb, bc, bd, be, bf, bg⟩
  have w32 : w < 2 ^ 32 := cat_lt _ bnd
  have sub : ∀ l : List (ℕ × ℕ),
      l <+: [(3, a), (2, x), (2, y), (3, c), (7, d), (1, e), (1, f), (13, g)] →
      ∀ p ∈ l, p.2 < 2 ^ p.1 := fun l hl p hp => bnd p (hl.subset hp)
  have sa : slice w 0 3 = a := slice_cat [] 3 a _ (by simp) ba rfl rfl
  have sx : slice w 3 5 = x := slice_cat [(3, a)] 2 x _ (sub _ ⟨_, rfl⟩) bx rfl rfl
  have sy : slice w 5 7 = y := slice_cat [(3, a), (2, x)] 2 y _ (sub _ ⟨_, rfl⟩) yb rfl rfl
  have sc : slice w 7 10 = c :=
    slice_cat [(3, a), (2, x), (2, y)] 3 c _ (sub _ ⟨_, rfl⟩) bc rfl rfl
  have sd : slice w 10 17 = d :=
    slice_cat [(3, a), (2, x), (2, y), (3, c)] 7 d _ (sub _ ⟨_, rfl⟩) bd rfl rfl
  have se : slice w 17 18 = e :=
    slice_cat [(3, a), (2, x), (2, y), (3, c), (7, d)] 1 e _ (sub _ ⟨_, rfl⟩) be rfl rfl
  have sf : slice w 18 19 = f :=
    slice_cat [(3, a), (2, x), (2, y), (3, c), (7, d), (1, e)] 1 f _ (sub _ ⟨_, rfl⟩) bf rfl rfl
  have sg : slice w 19 32 = g :=
    slice_cat [(3, a), (2, x), (2, y), (3, c), (7, d), (1, e), (1, f)] 13 g _ (sub _ ⟨_, rfl⟩) bg
      rfl rfl
  have sb := spread_slices w (a := 3) (b := 5) (c := 7) (by norm_num) (by norm_num)
  norm_num only [sx, sy] at sb
  have one : ∀ x, x < 2 ^ 1 → spreadBits 1 x = x := by intro x hx; simp [spreadBits]; omega
  have ew : word = (w : ℕ) := by
    rw [hwdef]; simp only [cat]; push_cast
    linear_combination -hw - h4 * 2 ^ 3
  have hr : witness r0e r0o r1e r1o = ((r20 w : ℕ) : F) := by
    simp only [r20, cat, sa, sc, sd, sb, se, sf, sg, one e be, one f bf]
    push_cast
    linear_combination h5
  have hr' : witness r0e' r0o' r1e' r1o' = ((r21 w : ℕ) : F) := by
    simp only [r21, cat, sa, sc, sd, sb, se, sf, sg, one e be, one f bf]
    push_cast
    linear_combination k5
  obtain ⟨q0, -, q2, -⟩ := out_sound hF (r20_lt w) l0 l1 l2 l3 hr
  obtain ⟨q0', -, q2', -⟩ := out_sound hF (r21_lt w) l0' l1' l2' l3' hr'
  rw [r20_eq w w32] at q0 q2
  rw [r21_eq w w32] at q0' q2'
  exact ⟨w, w32, ew, ⟨q0, q2⟩, q0', q2'⟩

/-- The decomposition of `A`, `B`, `C`. -/
theorem abcd_sound (hF : Big F) {a sa b sb tB cLo scLo cMid scMid cHi scHi d sd tD lo sLo hi sHi : F}
    (lB : [tB, b, sb] ∈ (table : List (List F))) (lD : [tD, d, sd] ∈ (table : List (List F)))
    (h : ∀ p ∈ gAbcd a sa b sb tB cLo scLo cMid scMid cHi scHi d sd tD lo sLo hi sHi, p = 0) :
    ∃ w < 2 ^ 32, lo + hi * 2 ^ 16 = (w : ℕ) ∧ sLo + sHi * 2 ^ 32 = (spreadBits 32 w : ℕ) ∧
      sa = sp F 2 (slice w 0 2) ∧ sb = sp F 11 (slice w 2 13) ∧ scLo = sp F 3 (slice w 13 16) ∧
      scMid = sp F 3 (slice w 16 19) ∧ scHi = sp F 3 (slice w 19 22) ∧
      sd = sp F 10 (slice w 22 32) := by
  unfold gAbcd at h
  simp only [all_append] at h
  obtain ⟨⟨⟨⟨h1, h2⟩, h3⟩, h4⟩, h5⟩ := h
  simp only [List.mem_cons, List.not_mem_nil, or_false, forall_eq_or_imp, forall_eq] at h5
  obtain ⟨hB, hD, hw, hsw⟩ := h5
  obtain ⟨b, bb, rfl, rfl⟩ := tagged hF lB (upper := 2) (bits := 11) (by simp) hB
  obtain ⟨d, bd, rfl, rfl⟩ := tagged hF lD (upper := 1) (bits := 10) (by simp) hD
  obtain ⟨x, bx, rfl, rfl⟩ := (threeBit_zero hF _ _).1 h1
  obtain ⟨y, yb, rfl, rfl⟩ := (threeBit_zero hF _ _).1 h2
  obtain ⟨z, bz, rfl, rfl⟩ := (threeBit_zero hF _ _).1 h3
  obtain ⟨a, ba, rfl, rfl⟩ := (twoBit_zero hF _ _).1 h4
  set w := cat [(2, a), (11, b), (3, x), (3, y), (3, z), (10, d)] with hwdef
  have bnd : ∀ p ∈ [(2, a), (11, b), (3, x), (3, y), (3, z), (10, d)], p.2 < 2 ^ p.1 := by
    simp only [List.mem_cons, List.not_mem_nil, or_false, forall_eq_or_imp, forall_eq]
    exact ⟨ba, bb, bx, yb, bz, bd⟩
  have w32 : w < 2 ^ 32 := cat_lt _ bnd
  have sub : ∀ l : List (ℕ × ℕ), l <+: [(2, a), (11, b), (3, x), (3, y), (3, z), (10, d)] →
      ∀ p ∈ l, p.2 < 2 ^ p.1 := fun l hl p hp => bnd p (hl.subset hp)
  have sa : slice w 0 2 = a := slice_cat [] 2 a _ (by simp) ba rfl rfl
  have sb : slice w 2 13 = b := slice_cat [(2, a)] 11 b _ (sub _ ⟨_, rfl⟩) bb rfl rfl
  have sx : slice w 13 16 = x := slice_cat [(2, a), (11, b)] 3 x _ (sub _ ⟨_, rfl⟩) bx rfl rfl
  have sy : slice w 16 19 = y :=
    slice_cat [(2, a), (11, b), (3, x)] 3 y _ (sub _ ⟨_, rfl⟩) yb rfl rfl
  have sz : slice w 19 22 = z :=
    slice_cat [(2, a), (11, b), (3, x), (3, y)] 3 z _ (sub _ ⟨_, rfl⟩) bz rfl rfl
  have sd : slice w 22 32 = d :=
    slice_cat [(2, a), (11, b), (3, x), (3, y), (3, z)] 10 d _ (sub _ ⟨_, rfl⟩) bd rfl rfl
  have hspread := cat_spread _ bnd
  rw [← hwdef] at hspread
  refine ⟨w, w32, ?_, ?_, ?_⟩
  · rw [hwdef]; simp only [cat]; push_cast
    linear_combination -hw
  · rw [show spreadBits 32 w = _ from hspread.symm]
    simp only [List.map_cons, List.map_nil, cat]
    push_cast
    linear_combination -hsw
  · rw [sa, sb, sx, sy, sz, sd]
    exact ⟨rfl, rfl, rfl, rfl, rfl, rfl⟩

/-- The decomposition of `E`, `F`, `G`. -/
theorem efgh_sound (hF : Big F) {aLo saLo aHi saHi bLo sbLo bHi sbHi c sc tC d sd tD lo sLo hi sHi : F}
    (lC : [tC, c, sc] ∈ (table : List (List F))) (lD : [tD, d, sd] ∈ (table : List (List F)))
    (h : ∀ p ∈ gEfgh aLo saLo aHi saHi bLo sbLo bHi sbHi c sc tC d sd tD lo sLo hi sHi, p = 0) :
    ∃ w < 2 ^ 32, lo + hi * 2 ^ 16 = (w : ℕ) ∧ sLo + sHi * 2 ^ 32 = (spreadBits 32 w : ℕ) ∧
      saLo = sp F 3 (slice w 0 3) ∧ saHi = sp F 3 (slice w 3 6) ∧ sbLo = sp F 2 (slice w 6 8) ∧
      sbHi = sp F 3 (slice w 8 11) ∧ sc = sp F 14 (slice w 11 25) ∧
      sd = sp F 7 (slice w 25 32) := by
  unfold gEfgh at h
  simp only [all_append] at h
  obtain ⟨⟨⟨⟨h1, h2⟩, h3⟩, h4⟩, h5⟩ := h
  simp only [List.mem_cons, List.not_mem_nil, or_false, forall_eq_or_imp, forall_eq] at h5
  obtain ⟨hC, hD, hw, hsw⟩ := h5
  obtain ⟨c, bc, rfl, rfl⟩ := tagged hF lC (upper := 4) (bits := 14) (by simp) hC
  obtain ⟨d, bd, rfl, rfl⟩ := tagged hF lD (upper := 0) (bits := 7) (by simp) hD
  obtain ⟨x, bx, rfl, rfl⟩ := (threeBit_zero hF _ _).1 h1
  obtain ⟨y, yb, rfl, rfl⟩ := (threeBit_zero hF _ _).1 h2
  obtain ⟨v, bv, rfl, rfl⟩ := (threeBit_zero hF _ _).1 h3
  obtain ⟨u, bu, rfl, rfl⟩ := (twoBit_zero hF _ _).1 h4
  set w := cat [(3, x), (3, y), (2, u), (3, v), (14, c), (7, d)] with hwdef
  have bnd : ∀ p ∈ [(3, x), (3, y), (2, u), (3, v), (14, c), (7, d)], p.2 < 2 ^ p.1 := by
    simp only [List.mem_cons, List.not_mem_nil, or_false, forall_eq_or_imp, forall_eq]
    exact ⟨bx, yb, bu, bv, bc, bd⟩
  have w32 : w < 2 ^ 32 := cat_lt _ bnd
  have sub : ∀ l : List (ℕ × ℕ), l <+: [(3, x), (3, y), (2, u), (3, v), (14, c), (7, d)] →
      ∀ p ∈ l, p.2 < 2 ^ p.1 := fun l hl p hp => bnd p (hl.subset hp)
  have sx : slice w 0 3 = x := slice_cat [] 3 x _ (by simp) bx rfl rfl
  have sy : slice w 3 6 = y := slice_cat [(3, x)] 3 y _ (sub _ ⟨_, rfl⟩) yb rfl rfl
  have su : slice w 6 8 = u := slice_cat [(3, x), (3, y)] 2 u _ (sub _ ⟨_, rfl⟩) bu rfl rfl
  have sv : slice w 8 11 = v :=
    slice_cat [(3, x), (3, y), (2, u)] 3 v _ (sub _ ⟨_, rfl⟩) bv rfl rfl
  have sc : slice w 11 25 = c :=
    slice_cat [(3, x), (3, y), (2, u), (3, v)] 14 c _ (sub _ ⟨_, rfl⟩) bc rfl rfl
  have sd : slice w 25 32 = d :=
    slice_cat [(3, x), (3, y), (2, u), (3, v), (14, c)] 7 d _ (sub _ ⟨_, rfl⟩) bd rfl rfl
  have hspread := cat_spread _ bnd
  rw [← hwdef] at hspread
  refine ⟨w, w32, ?_, ?_, ?_⟩
  · rw [hwdef]; simp only [cat]; push_cast
    linear_combination -hw
  · rw [show spreadBits 32 w = _ from hspread.symm]
    simp only [List.map_cons, List.map_nil, cat]
    push_cast
    linear_combination -hsw
  · rw [sx, sy, su, sv, sc, sd]
    exact ⟨rfl, rfl, rfl, rfl, rfl, rfl⟩

end Verif.Sha256
