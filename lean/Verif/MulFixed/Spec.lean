import Verif.MulFixed.Model
import Verif.Ecc.Props
import Verif.PolyArith.Props
import Verif.Utilities.Props
import Mathlib.Data.Nat.Digits.Lemmas

/-!
# What a fixed base must provide

The tables are described by integer multiples of the base, independently of the functions that
compute them.
-/

namespace Verif.MulFixed

open Verif.Ecc

variable {p q : ℕ} [Fact p.Prime] [Fact q.Prime] {b : ZMod p}

/-- The sum of the twos added to the windows but the last. -/
def twos : ℕ → ℕ
  | 0 => 0
  | n + 1 => twos n + 2 * 8 ^ n

/-- The polynomial with given coefficients, lowest first, at a point. -/
def horner (cs : List (ZMod p)) (x : ZMod p) : ZMod p :=
  match cs with
  | [] => 0
  | c :: cs => c + x * horner cs x

/-- The point of the window `w` for the digit `k`. -/
def entry (B : Pt b) (numWindows w k : ℕ) : Pt b :=
  if w + 1 < numWindows then ((k + 2) * 8 ^ w) • B
  else (k * 8 ^ w) • B - twos w • B

/-- **What the documentation of `FixedPoint` asks for**: for every window and digit the coefficients
interpolate the `x`-coordinate of the point, `z + y` is the square of `u`, and `z - y` is not a
square. -/
structure FixedPoint.Valid (base : FixedPoint b) (numWindows : ℕ) : Prop where
  lenL : base.lagrangeCoeffs.length = numWindows
  lenZ : base.z.length = numWindows
  lenU : base.u.length = numWindows
  row : ∀ w < numWindows, ∃ cs z us, base.lagrangeCoeffs[w]? = some cs ∧ base.z[w]? = some z ∧
    base.u[w]? = some us ∧ cs.length = 8 ∧ us.length = 8 ∧
    ∀ k < 8, ∃ x y u, entry base.generator numWindows w k ≠ 0 ∧
      enc (entry base.generator numWindows w k) = (x, y) ∧
      horner cs (k : ZMod p) = x ∧ us[k]? = some u ∧ (z : ZMod p) + y = u ^ 2 ∧
      ¬ IsSquare ((z : ZMod p) - y)

/-! ## Scalars and integers -/

theorem smul_natCast {B : Pt b} (hq : q • B = 0) (n : ℕ) : smul (n : ZMod q) B = n • B := by
  unfold smul
  rw [ZMod.val_natCast]
  conv_rhs => rw [← Nat.div_add_mod n q, add_smul, mul_comm, mul_smul, hq, smul_zero, zero_add]

theorem smul_of_add {B : Pt b} (hq : q • B = 0) {s : ZMod q} {n m : ℕ} (h : s = (n : ZMod q) - m) :
    smul s B = n • B - m • B := by
  rw [eq_sub_iff_add_eq, ← smul_natCast hq n, ← smul_natCast hq m]
  have h' : s + (m : ZMod q) = n := by rw [h]; ring
  unfold smul
  rw [← add_smul, ← h', ZMod.val_add]
  set k := s.val + (m : ZMod q).val
  conv_lhs => rw [← Nat.div_add_mod k q, add_smul, mul_comm, mul_smul, hq, smul_zero, zero_add]

theorem lowerScalar_eq (k w : ℕ) : lowerScalar (k : ZMod q) w = (((k + 2) * 8 ^ w : ℕ) : ZMod q) := by
  unfold lowerScalar; push_cast; ring

theorem offset_fold (n : ℕ) : (List.range n).foldl (fun (acc : ZMod q) w => acc + 2 ^ (3 * w + 1)) 0
    = (twos n : ZMod q) := by
  induction n with
  | zero => simp [twos]
  | succ n ih =>
    rw [List.range_succ, List.foldl_append, ih]
    simp only [List.foldl_cons, List.foldl_nil, twos]
    push_cast
    rw [pow_succ, pow_mul]; norm_num; ring

theorem msbScalar_eq (N k : ℕ) : msbScalar N (k : ZMod q)
    = ((k * 8 ^ (N - 1) : ℕ) : ZMod q) - (twos (N - 1) : ℕ) := by
  unfold msbScalar offsetAcc
  rw [offset_fold]; push_cast; ring

theorem smul_lower {B : Pt b} (hq : q • B = 0) {N w : ℕ} (hw : w + 1 < N) (k : ℕ) :
    smul (lowerScalar (k : ZMod q) w) B = entry B N w k := by
  rw [lowerScalar_eq, smul_natCast hq, entry, if_pos hw]

theorem smul_msb {B : Pt b} (hq : q • B = 0) {N : ℕ} (k : ℕ) :
    smul (msbScalar N (k : ZMod q)) B = entry B N (N - 1) k := by
  rw [smul_of_add hq (msbScalar_eq N k), entry, if_neg (by omega)]

/-! ## The tables of `constants.rs` -/

theorem coordinates_some {P : Pt b} {r : ZMod p × ZMod p} (h : coordinates P = some r) :
    P ≠ 0 ∧ enc P = r := by
  unfold coordinates at h
  split_ifs at h with h0
  exact ⟨h0, Option.some.inj h⟩

theorem mapM_some {α β : Type} {f : α → Option β} {l : List α} {r : List β} (h : l.mapM f = some r) :
    r.length = l.length ∧ ∀ (i : ℕ) (a : α), l[i]? = some a → ∃ c, r[i]? = some c ∧ f a = some c := by
  induction l generalizing r with
  | nil => cases h; simp
  | cons a l ih =>
    rw [List.mapM_cons] at h
    rcases hf : f a with _ | c
    · rw [hf] at h; cases h
    rcases hl : l.mapM f with _ | r'
    · rw [hf, hl] at h; cases h
    rw [hf, hl] at h
    cases h
    obtain ⟨e, h'⟩ := ih hl
    refine ⟨by simp [e], fun i a' ha => ?_⟩
    cases i with
    | zero => cases ha; exact ⟨c, rfl, hf⟩
    | succ i => exact h' i a' (by simpa using ha)

/-- The window table has the points of the specification. -/
theorem computeWindowTable_spec {B : Pt b} (hq : q • B = 0) {N : ℕ} {table : List (List (Pt b))}
    (h : computeWindowTable q B N = some table) : table.length = N ∧
      ∀ w < N, table[w]? = some ((List.range 8).map fun k => entry B N w k) := by
  unfold computeWindowTable at h
  split_ifs at h with h0
  cases h
  refine ⟨by simp; omega, fun w hw => ?_⟩
  by_cases hl : w < N - 1
  · rw [List.getElem?_append_left (by simpa using hl), List.getElem?_map, List.getElem?_range hl]
    simp only [Option.map_some, smul_lower hq (show w + 1 < N by omega)]
  · have : w = N - 1 := by omega
    subst this
    rw [List.getElem?_append_right (by simp)]
    simp only [List.length_map, List.length_range, Nat.sub_self, List.getElem?_cons_zero, smul_msb hq]

theorem mapM_of {α β : Type} {f : α → Option β} {l : List α} (h : ∀ a ∈ l, ∃ c, f a = some c) :
    ∃ r, l.mapM f = some r := by
  induction l with
  | nil => exact ⟨[], rfl⟩
  | cons a l ih =>
    obtain ⟨c, hc⟩ := h a (List.mem_cons_self ..)
    obtain ⟨r, hr⟩ := ih fun a' ha => h a' (List.mem_cons_of_mem _ ha)
    exact ⟨c :: r, by rw [List.mapM_cons, hc, hr]; rfl⟩

theorem horner_eval (cs : List (ZMod p)) (x : ZMod p) : horner cs x = (PolyArith.toPoly cs).eval x := by
  induction cs with
  | nil => simp [horner]
  | cons c cs ih => simp [horner, ih]

theorem points_nodup (hp : 8 ≤ p) : ((List.range 8).map fun (i : ℕ) => (i : ZMod p)).Nodup := by
  refine List.Nodup.map_on ?_ List.nodup_range
  intro i hi j hj h
  rw [List.mem_range] at hi hj
  have := congrArg ZMod.val h
  rwa [ZMod.val_natCast_of_lt (by omega), ZMod.val_natCast_of_lt (by omega)] at this

/-- The interpolation of `compute_lagrange_coeffs`. -/
theorem computeLagrangeCoeffs_spec {B : Pt b} (hq : q • B = 0) (hp : 8 ≤ p) {N : ℕ}
    {L : List (List (ZMod p))} (h : computeLagrangeCoeffs q B N = some L) : L.length = N ∧
      ∀ w < N, ∃ cs, L[w]? = some cs ∧ cs.length = 8 ∧ ∀ k < 8, entry B N w k ≠ 0 ∧
        horner cs (k : ZMod p) = (enc (entry B N w k)).1 := by
  unfold computeLagrangeCoeffs at h
  obtain ⟨table, ht, h⟩ := Option.bind_eq_some_iff.1 h
  obtain ⟨hlen, htab⟩ := computeWindowTable_spec hq ht
  obtain ⟨e1, h1⟩ := mapM_some h
  refine ⟨e1.trans hlen, fun w hw => ?_⟩
  obtain ⟨cs, hcs, h2⟩ := h1 w _ (htab w hw)
  obtain ⟨xs, hxs, h3⟩ := Option.bind_eq_some_iff.1 h2
  obtain ⟨out, ho, h4⟩ := Option.bind_eq_some_iff.1 h3
  obtain ⟨exs, hx⟩ := mapM_some hxs
  split_ifs at h4 with h8
  cases h4
  refine ⟨_, hcs, h8, fun k hk => ?_⟩
  obtain ⟨x, hx1, hx2⟩ := hx k _ (by rw [List.getElem?_map, List.getElem?_range hk]; rfl)
  obtain ⟨r, hr, rfl⟩ := Option.map_eq_some_iff.1 hx2
  obtain ⟨hne, rfl⟩ := coordinates_some hr
  refine ⟨hne, ?_⟩
  obtain ⟨out, ho', -, hev, -⟩ := PolyArith.lagrangeInterpolate_spec
    ((List.range 8).map fun (i : ℕ) => (i : ZMod p)) xs (by rw [exs]; simp) (points_nodup hp)
  rw [ho] at ho'
  cases ho'
  have := hev k (by simpa using hk)
  rw [← horner_eval] at this
  simp only [List.getElem_map, List.getElem_range] at this
  rw [this]
  rw [List.getElem?_eq_some_iff] at hx1
  exact hx1.2

/-- The search for `z`. -/
theorem findZAndUs_spec {ys : List (ZMod p)} {limit z : ℕ} {us : List (ZMod p)}
    (h : findZAndUs ys limit = some (z, us)) : us.length = ys.length ∧
      ∀ (k : ℕ) (y : ZMod p), ys[k]? = some y → ∃ u, us[k]? = some u ∧ (z : ZMod p) + y = u ^ 2 ∧
        ¬ IsSquare ((z : ZMod p) - y) := by
  unfold findZAndUs at h
  obtain ⟨z', -, h'⟩ := List.exists_of_findSome?_eq_some h
  obtain ⟨us', h1, h2⟩ := Option.map_eq_some_iff.1 h'
  cases h2
  obtain ⟨e, h3⟩ := mapM_some h1
  refine ⟨e, fun k y hy => ?_⟩
  obtain ⟨u, hu, h4⟩ := h3 k y hy
  split_ifs at h4 with hn
  refine ⟨u, hu, ?_, fun hs => ?_⟩
  · unfold sqrt at h4
    split_ifs at h4 with hs
    cases h4
    rw [add_comm, sq]
    exact hs.choose_spec
  · unfold sqrt at hn
    rw [dif_pos (by rw [neg_add_eq_sub]; exact hs)] at hn
    cases hn

/-- **The tables computed by the code are valid.** -/
theorem computed_valid {B : Pt b} (hq : q • B = 0) (hp : 8 ≤ p) {N : ℕ} {L : List (List (ZMod p))}
    {zus : List (ℕ × List (ZMod p))} (hL : computeLagrangeCoeffs q B N = some L)
    (hz : findZsAndUs q B N = some (some zus)) :
    FixedPoint.Valid ⟨B, zus.map Prod.snd, zus.map Prod.fst, L⟩ N := by
  obtain ⟨eL, hrow⟩ := computeLagrangeCoeffs_spec hq hp hL
  unfold findZsAndUs at hz
  obtain ⟨table, ht, hz⟩ := Option.bind_eq_some_iff.1 hz
  obtain ⟨yss, h1, h2⟩ := Option.map_eq_some_iff.1 hz
  obtain ⟨elen, htab⟩ := computeWindowTable_spec hq ht
  obtain ⟨ey, h3⟩ := mapM_some h1
  obtain ⟨ez, h4⟩ := mapM_some h2
  refine ⟨eL, by simp [ez, ey, elen], by simp [ez, ey, elen], fun w hw => ?_⟩
  obtain ⟨cs, hcs, hc8, hk⟩ := hrow w hw
  obtain ⟨ys, hys, h5⟩ := h3 w _ (htab w hw)
  obtain ⟨⟨z, us⟩, hzu, h6⟩ := h4 w _ hys
  obtain ⟨e8, h7⟩ := mapM_some h5
  obtain ⟨eu, h8⟩ := findZAndUs_spec h6
  refine ⟨cs, z, us, hcs, by simp [hzu], by simp [hzu], hc8, by rw [eu, e8]; simp, fun k hk8 => ?_⟩
  obtain ⟨hne, hx⟩ := hk k hk8
  obtain ⟨y, hy, hy'⟩ := h7 k _ (by rw [List.getElem?_map, List.getElem?_range hk8]; rfl)
  obtain ⟨r, hr, rfl⟩ := Option.map_eq_some_iff.1 hy'
  obtain ⟨-, rfl⟩ := coordinates_some hr
  obtain ⟨u, hu, h9, h10⟩ := h8 k _ hy
  exact ⟨_, _, u, hne, rfl, hx, hu, h9, h10⟩

/-- The interpolation succeeds when no point of the table is the identity. -/
theorem computeLagrangeCoeffs_succeeds {B : Pt b} (hq : q • B = 0) (hp : 8 ≤ p) {N : ℕ} (h0 : N ≠ 0)
    (h : ∀ w < N, ∀ k < 8, entry B N w k ≠ 0) : ∃ L, computeLagrangeCoeffs q B N = some L := by
  unfold computeLagrangeCoeffs
  obtain ⟨table, ht⟩ : ∃ t, computeWindowTable q B N = some t := by
    unfold computeWindowTable; rw [if_neg h0]; exact ⟨_, rfl⟩
  obtain ⟨elen, htab⟩ := computeWindowTable_spec hq ht
  rw [ht, Option.bind_some]
  refine mapM_of fun pts hpts => ?_
  obtain ⟨w, hp'⟩ := List.mem_iff_getElem?.1 hpts
  have hw : w < N := by
    by_contra hc
    rw [List.getElem?_eq_none (by omega)] at hp'
    cases hp'
  rw [htab w hw] at hp'
  cases hp'
  obtain ⟨xs, hxs⟩ := mapM_of (l := (List.range 8).map fun k => entry B N w k)
    (f := fun P => (coordinates P).map Prod.fst) (by
      intro P hP
      obtain ⟨k, hk, rfl⟩ := List.mem_map.1 hP
      refine ⟨(enc (entry B N w k)).1, ?_⟩
      unfold coordinates
      rw [if_neg (h w hw k (List.mem_range.1 hk))]
      rfl)
  obtain ⟨exs, -⟩ := mapM_some hxs
  obtain ⟨out, ho, hl, -⟩ := PolyArith.lagrangeInterpolate_spec
    ((List.range 8).map fun (i : ℕ) => (i : ZMod p)) xs (by rw [exs]; simp) (points_nodup hp)
  refine ⟨out, ?_⟩
  rw [hxs, Option.bind_some, ho, Option.bind_some, if_pos (by simpa using hl)]

end Verif.MulFixed
