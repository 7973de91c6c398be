import Mathlib.Tactic.LinearCombination
import Mathlib.Tactic.FieldSimp
import Verif.Region.Lemmas
import Verif.RunningSum.Model
import Verif.Utilities.Props

/-!
# Running sums (C35)
-/

namespace Verif.RunningSum

open Verif.Region Verif.Utilities

variable {C S F : Type} [Field F]

/-- The values of the running sum after the first. -/
def sums (inv : F) : F → List F → List F
  | _, [] => []
  | z, w :: ws => (z - w) * inv :: sums inv ((z - w) * inv) ws

/-- The cells of the running sum after the first. -/
def sumCells (reg : ℕ) (col : C) (inv : F) : ℕ → F → List F → List (ACell C F)
  | _, _, [] => []
  | row, z, w :: ws => ⟨⟨reg, col, (row + 1 : ℕ)⟩, (z - w) * inv⟩ ::
      sumCells reg col inv (row + 1) ((z - w) * inv) ws

theorem assignSums_run (reg : ℕ) (col : C) (inv : F) (row : ℕ) (z : ACell C F) (ws : List F)
    (n : ℕ) : (assignSums reg col inv row z ws : M C S F _) n
      = some (sumCells reg col inv row z.value ws, n,
        (sumCells reg col inv row z.value ws).map fun c => .advice c.cell c.value) := by
  induction ws generalizing row z with
  | nil => rfl
  | cons w ws ih =>
    unfold assignSums
    have h1 : (assignAdvice reg col (row + 1) ((z.value - w) * inv) : M C S F _) n
      = some (⟨⟨reg, col, (row + 1 : ℕ)⟩, (z.value - w) * inv⟩, n,
        [.advice ⟨reg, col, (row + 1 : ℕ)⟩ ((z.value - w) * inv)]) := rfl
    have h2 := bind_of (f := fun rest => (pure (⟨⟨reg, col, (row + 1 : ℕ)⟩, (z.value - w) * inv⟩ :: rest) :
      M C S F _)) (ih (row + 1) ⟨⟨reg, col, (row + 1 : ℕ)⟩, (z.value - w) * inv⟩)
      (rfl : _ = some (_, _, []))
    rw [List.append_nil] at h2
    exact bind_of h1 h2

theorem sumCells_length (reg : ℕ) (col : C) (inv : F) (row : ℕ) (z : F) (ws : List F) :
    (sumCells reg col inv row z ws).length = ws.length := by
  induction ws generalizing row z with
  | nil => rfl
  | cons w ws ih => simp [sumCells, ih]

theorem sumCells_cell (reg : ℕ) (col : C) (inv : F) (row : ℕ) (z : F) (ws : List F) (i : ℕ)
    (h : i < ws.length) :
    ((sumCells reg col inv row z ws)[i]'(by rw [sumCells_length]; exact h)).cell
      = ⟨reg, col, ((row + i + 1 : ℕ) : ℤ)⟩ := by
  induction ws generalizing row z i with
  | nil => simp at h
  | cons w ws ih =>
    cases i with
    | zero => rfl
    | succ i =>
      simp only [sumCells, List.getElem_cons_succ]
      rw [ih _ _ _ (by simpa using h)]
      congr 2; omega

theorem enableRows_run (s : S) (reg offset n m : ℕ) : (enableRows s reg offset n : M C S F Unit) m
    = some ((), m, (List.range n).map fun i => .enable s reg ((offset + i : ℕ) : ℤ)) := by
  induction n with
  | zero => rfl
  | succ n ih =>
    unfold enableRows
    rw [List.range_succ, List.map_append]
    exact bind_of ih rfl

/-! ## The relation imposed by the gates -/

/-- Digits below `2^K` chained from `z 0` to `z n`. -/
theorem chain (B : ℕ) (z : ℕ → F) (n : ℕ) (h : ∀ i < n, ∃ k < B, z i = (k : F) + (B : F) * z (i + 1)) :
    ∃ m < B ^ n, z 0 = (m : F) + (B : F) ^ n * z n := by
  induction n with
  | zero => exact ⟨0, by simp, by simp⟩
  | succ n ih =>
    obtain ⟨m, hm, e⟩ := ih fun i hi => h i (by omega)
    obtain ⟨k, hk, e'⟩ := h n (by omega)
    refine ⟨m + B ^ n * k, ?_, ?_⟩
    · rw [pow_succ]
      calc m + B ^ n * k < B ^ n + B ^ n * k := by omega
        _ = B ^ n * (k + 1) := by ring
        _ ≤ B ^ n * B := Nat.mul_le_mul_left _ hk
    · rw [e, e']; push_cast; ring

/-- The values of honest running sums. -/
theorem sumCells_value (reg : ℕ) (col : C) {B : F} (hB : B ≠ 0) (row : ℕ) (z : F) (ws : List F) :
    ∀ i (h : i < ws.length),
      (z :: (sumCells reg col B⁻¹ row z ws).map ACell.value)[i]'(by simp [sumCells_length]; omega)
        = ws[i] + B * ((z :: (sumCells reg col B⁻¹ row z ws).map ACell.value)[i + 1]'(by
          simp [sumCells_length]; omega)) := by
  induction ws generalizing row z with
  | nil => intro i h; simp at h
  | cons w ws ih =>
    intro i h
    cases i with
    | zero => simp [sumCells]; field_simp; ring
    | succ i =>
      have := ih (row + 1) ((z - w) * B⁻¹) i (by simpa using h)
      simp only [sumCells, List.map_cons, List.getElem_cons_succ] at this ⊢
      exact this

section

variable {p : ℕ} [Fact p.Prime]

/-- The operations recorded by `decompose`. -/
def decomposeOps (K : ℕ) (cfg : Config C S) (reg offset : ℕ) (z₀ : ACell C (ZMod p))
    (strict : Bool) (words : List (ZMod p)) : List (Op C S (ZMod p)) :=
  ((List.range words.length).map fun i => .enable cfg.qRangeCheck reg ((offset + i : ℕ) : ℤ)) ++
  ((sumCells reg cfg.z ((2 ^ K : ℕ) : ZMod p)⁻¹ offset z₀.value words).map fun c =>
    .advice c.cell c.value) ++
  if strict then [.const ((z₀ :: sumCells reg cfg.z ((2 ^ K : ℕ) : ZMod p)⁻¹ offset z₀.value
    words).getLast (by simp)).cell 0] else []

theorem decompose_run {reprBits K : ℕ} {cfg : Config C S} {reg offset : ℕ} {z₀ : ACell C (ZMod p)}
    {strict : Bool} {wordNumBits numWindows n n' : ℕ} {zs : List (ACell C (ZMod p))}
    {ops : List (Op C S (ZMod p))}
    (h : decompose reprBits K cfg reg offset z₀ strict wordNumBits numWindows n = some (zs, n', ops)) :
    ∃ words : List ℕ, decomposeWord reprBits z₀.value wordNumBits K = some words ∧
      words.length = numWindows ∧ K * numWindows < wordNumBits + K ∧
      ((2 ^ K : ℕ) : ZMod p) ≠ 0 ∧ n' = n ∧
      zs = z₀ :: sumCells reg cfg.z ((2 ^ K : ℕ) : ZMod p)⁻¹ offset z₀.value
        (words.map fun (w : ℕ) => (w : ZMod p)) ∧
      ops = decomposeOps K cfg reg offset z₀ strict (words.map fun (w : ℕ) => (w : ZMod p)) := by
  unfold decompose at h
  obtain ⟨_, n₁, o₁, o₁', e₁, h₁, rfl⟩ := bind_some h
  obtain ⟨hK, rfl, rfl⟩ := assert_some e₁
  obtain ⟨_, n₂, o₂, o₂', e₂, h₂, rfl⟩ := bind_some h₁
  rw [enableRows_run] at e₂
  cases e₂
  obtain ⟨words, n₃, o₃, o₃', e₃, h₃, rfl⟩ := bind_some h₂
  unfold unwrap at e₃
  obtain ⟨ws, hws, e₃⟩ := Option.map_eq_some_iff.1 e₃
  cases e₃
  obtain ⟨_, n₄, o₄, o₄', e₄, h₄, rfl⟩ := bind_some h₃
  obtain ⟨hl, rfl, rfl⟩ := assert_some e₄
  obtain ⟨_, n₅, o₅, o₅', e₅, h₅, rfl⟩ := bind_some h₄
  obtain ⟨h0, rfl, rfl⟩ := assert_some e₅
  obtain ⟨rest, n₆, o₆, o₆', e₆, h₆, rfl⟩ := bind_some h₅
  rw [assignSums_run] at e₆
  cases e₆
  obtain ⟨_, n₇, o₇, o₇', h1, h₇, rfl⟩ := bind_some h₆
  cases h₇
  refine ⟨words, hws, hl, hK, h0, ?_, rfl, ?_⟩
  · cases strict <;> cases h1 <;> rfl
  · subst hl
    cases strict <;> cases h1 <;> simp [decomposeOps]

/-- **C35**, soundness: whatever the assignment, if it meets the constraints, consecutive running
sums differ by a digit below `2^K`; the first is the base-`2^K` sum of `W` digits plus
`2^(K W) z_W`; in strict mode it is an integer below `2^(K W)`. -/
theorem decompose_sound {reprBits K : ℕ} {cfg : Config C S} {reg offset : ℕ}
    {z₀ : ACell C (ZMod p)} {strict : Bool} {wordNumBits numWindows n n' : ℕ}
    {zs : List (ACell C (ZMod p))} {ops : List (Op C S (ZMod p))}
    (h : decompose reprBits K cfg reg offset z₀ strict wordNumBits numWindows n = some (zs, n', ops))
    (hz : z₀.cell = ⟨reg, cfg.z, offset⟩) (G : Grid C (ZMod p)) (hs : Sat (gates K cfg) G ops) :
    ∃ z : ℕ → ZMod p, zs.map (fun c => G.at c.cell) = (List.range (numWindows + 1)).map z ∧
      z 0 = G.at z₀.cell ∧
      (∀ i < numWindows, ∃ k < 2 ^ K, z i = (k : ℕ) + ((2 ^ K : ℕ) : ZMod p) * z (i + 1)) ∧
      (∃ m < 2 ^ (K * numWindows), z 0 = (m : ℕ) + ((2 ^ (K * numWindows) : ℕ) : ZMod p) * z numWindows) ∧
      (strict = true → ∃ m < 2 ^ (K * numWindows), G.at z₀.cell = (m : ℕ)) := by
  obtain ⟨words, hw, hl, hK, h0, -, rfl, rfl⟩ := decompose_run h
  set ws := words.map fun (w : ℕ) => (w : ZMod p) with hwsdef
  have hwl : ws.length = numWindows := by rw [hwsdef, List.length_map, hl]
  refine ⟨fun i => G reg cfg.z ((offset + i : ℕ) : ℤ), ?_, ?_, ?_⟩
  · refine List.ext_getElem (by simp [sumCells_length, hwl]) fun i h1 h2 => ?_
    simp only [List.getElem_map, List.getElem_range]
    cases i with
    | zero => rw [List.getElem_cons_zero, hz]; rfl
    | succ i =>
      simp only [List.length_map, List.length_cons, sumCells_length] at h1
      rw [List.getElem_cons_succ, sumCells_cell _ _ _ _ _ _ _ (by omega)]
      rfl
  · rw [hz]; rfl
  have hstep : ∀ i < numWindows, ∃ k < 2 ^ K, G reg cfg.z ((offset + i : ℕ) : ℤ)
      = (k : ℕ) + ((2 ^ K : ℕ) : ZMod p) * G reg cfg.z ((offset + (i + 1) : ℕ) : ℤ) := by
    intro i hi
    have hg := hs.gates _ (List.mem_singleton.2 rfl) reg ((offset + i : ℕ) : ℤ) (by
      unfold decomposeOps
      refine List.mem_append_left _ (List.mem_append_left _ (List.mem_map.2 ⟨i, ?_, rfl⟩))
      rw [List.mem_range, hwl]; exact hi)
    simp only [Grid.query, add_zero, List.mem_singleton, forall_eq] at hg
    rw [rangeCheck_iff _ _ Nat.one_le_two_pow] at hg
    obtain ⟨k, hk, e⟩ := hg
    refine ⟨k, hk, ?_⟩
    have e2 : ((offset + i : ℕ) : ℤ) + 1 = ((offset + (i + 1) : ℕ) : ℤ) := by push_cast; ring
    rw [e2] at e
    rw [← e]; ring
  have hchain := chain (2 ^ K) (fun i => G reg cfg.z ((offset + i : ℕ) : ℤ)) numWindows hstep
  have hchain' : ∃ m < 2 ^ (K * numWindows), G reg cfg.z ((offset + 0 : ℕ) : ℤ)
      = (m : ℕ) + ((2 ^ (K * numWindows) : ℕ) : ZMod p) * G reg cfg.z ((offset + numWindows : ℕ) : ℤ) := by
    obtain ⟨m, hm, e⟩ := hchain
    refine ⟨m, by rwa [← pow_mul] at hm, ?_⟩
    rw [e]; push_cast; rw [pow_mul]
  refine ⟨hstep, hchain', fun hst => ?_⟩
  subst hst
  obtain ⟨m, hm, e⟩ := hchain'
  refine ⟨m, hm, ?_⟩
  have hlast := hs.const _ _ (by
    unfold decomposeOps
    exact List.mem_append_right _ (by rw [if_pos rfl]; exact List.mem_singleton.2 rfl))
  have hcell : ((z₀ :: sumCells reg cfg.z ((2 ^ K : ℕ) : ZMod p)⁻¹ offset z₀.value ws).getLast
      (by simp)).cell = ⟨reg, cfg.z, ((offset + numWindows : ℕ) : ℤ)⟩ := by
    rw [List.getLast_eq_getElem]
    simp only [List.length_cons, sumCells_length, hwl, Nat.add_sub_cancel]
    cases numWindows with
    | zero => simp only [List.getElem_cons_zero, hz]; rfl
    | succ k =>
      rw [List.getElem_cons_succ, sumCells_cell _ _ _ _ _ _ _ (by omega)]
      rfl
  rw [hcell] at hlast
  have hlast : G reg cfg.z ((offset + numWindows : ℕ) : ℤ) = 0 := hlast
  rw [hlast, mul_zero, add_zero, add_zero] at e
  rw [hz]
  exact e

/-- Layout succeeds exactly when the number of windows is the one needed for the word (and the
window size is in range).  In particular fewer windows are not accepted, although the assertion in
the code only bounds their number from above. -/
theorem decompose_succeeds (reprBits K : ℕ) (cfg : Config C S) (reg offset : ℕ)
    (z₀ : ACell C (ZMod p)) (strict : Bool) (wordNumBits numWindows n : ℕ)
    (h2 : ((2 ^ K : ℕ) : ZMod p) ≠ 0) :
    (∃ r, decompose reprBits K cfg reg offset z₀ strict wordNumBits numWindows n = some r) ↔
      K ≠ 0 ∧ K ≤ 8 ∧ wordNumBits ≤ reprBits ∧ numWindows = (wordNumBits + (K - 1)) / K := by
  constructor
  · rintro ⟨⟨zs, n', ops⟩, h⟩
    obtain ⟨words, hw, hl, -⟩ := decompose_run h
    have hnp : ¬ (8 < K ∨ K = 0 ∨ reprBits < wordNumBits) := by
      rw [← decomposeWord_panics reprBits z₀.value, hw]; simp
    have hnp' : K ≤ 8 ∧ K ≠ 0 ∧ wordNumBits ≤ reprBits := by omega
    rw [decomposeWord_eq reprBits _ hnp'.1 hnp'.2.1 hnp'.2.2] at hw
    cases hw
    exact ⟨hnp'.2.1, hnp'.1, hnp'.2.2, by simpa using hl.symm⟩
  · rintro ⟨h0, h8, hr, rfl⟩
    have hlt : K * ((wordNumBits + (K - 1)) / K) < wordNumBits + K := by
      have := Nat.mul_div_le (wordNumBits + (K - 1)) K
      omega
    unfold decompose
    refine bind_ok (assert_of hlt n) (bind_ok (enableRows_run _ _ _ _ _) (bind_ok
      (a := (List.range ((wordNumBits + (K - 1)) / K)).map fun i =>
        z₀.value.val % 2 ^ wordNumBits / (2 ^ K) ^ i % 2 ^ K) (n' := n) (ops₁ := []) ?_
        (bind_ok (assert_of (by simp) n) (bind_ok (assert_of h2 n)
          (bind_ok (assignSums_run _ _ _ _ _ _ _) ?_)))))
    · unfold unwrap
      rw [decomposeWord_eq reprBits _ h8 h0 hr]; rfl
    · cases strict <;> exact ⟨_, rfl⟩

/-- The cells of a running sum, in order. -/
theorem zs_cell {reg : ℕ} {col : C} {offset : ℕ} {inv : ZMod p} {z₀ : ACell C (ZMod p)}
    (hz : z₀.cell = ⟨reg, col, offset⟩) (ws : List (ZMod p)) (j : ℕ) (hj : j < ws.length + 1) :
    ((z₀ :: sumCells reg col inv offset z₀.value ws)[j]'(by
      rw [List.length_cons, sumCells_length]; exact hj)).cell
        = ⟨reg, col, ((offset + j : ℕ) : ℤ)⟩ := by
  cases j with
  | zero => simp only [List.getElem_cons_zero, hz]; rfl
  | succ k =>
    rw [List.getElem_cons_succ, sumCells_cell _ _ _ _ _ _ _ (by omega)]; rfl

theorem zs_last {reg : ℕ} {col : C} {offset : ℕ} {inv : ZMod p} {z₀ : ACell C (ZMod p)}
    (hz : z₀.cell = ⟨reg, col, offset⟩) (ws : List (ZMod p))
    (h : z₀ :: sumCells reg col inv offset z₀.value ws ≠ []) :
    ((z₀ :: sumCells reg col inv offset z₀.value ws).getLast h).cell
        = ⟨reg, col, ((offset + ws.length : ℕ) : ℤ)⟩ := by
  rw [List.getLast_eq_getElem]
  simp only [List.length_cons, sumCells_length, Nat.add_sub_cancel]
  exact zs_cell hz ws ws.length (by omega)

/-- The first `W` digits in base `2^K` of the low bits of a field element. -/
def digits (K W bits : ℕ) (x : ZMod p) : List (ZMod p) :=
  (List.range W).map fun i => ((x.val % 2 ^ bits / (2 ^ K) ^ i % 2 ^ K : ℕ) : ZMod p)

/-- An assignment with the honest running sums: every step leaves a digit, and the last sum is
zero exactly when the value fits. -/
theorem honest_sums {K W bits reg offset : ℕ} {col : C} (h0 : ((2 ^ K : ℕ) : ZMod p) ≠ 0)
    (hW : bits ≤ K * W) {z₀ : ACell C (ZMod p)} (hz : z₀.cell = ⟨reg, col, offset⟩)
    {G : Grid C (ZMod p)}
    (hon : ∀ c ∈ z₀ :: sumCells reg col ((2 ^ K : ℕ) : ZMod p)⁻¹ offset z₀.value
      (digits K W bits z₀.value), G.at c.cell = c.value) :
    (∀ i < W, G reg col ((offset + i : ℕ) : ℤ)
      = ((z₀.value.val % 2 ^ bits / (2 ^ K) ^ i % 2 ^ K : ℕ) : ZMod p)
        + ((2 ^ K : ℕ) : ZMod p) * G reg col ((offset + (i + 1) : ℕ) : ℤ)) ∧
    (G reg col ((offset + W : ℕ) : ℤ) = 0 ↔ z₀.value.val < 2 ^ bits) := by
  set ws := digits K W bits z₀.value with hws
  have hwl : ws.length = W := by simp [hws, digits]
  set cells := sumCells reg col ((2 ^ K : ℕ) : ZMod p)⁻¹ offset z₀.value ws with hcells
  have hcl : cells.length = W := by rw [hcells, sumCells_length, hwl]
  have hrow : ∀ i (hi : i < W + 1), G reg col ((offset + i : ℕ) : ℤ)
      = ((z₀ :: cells)[i]'(by rw [List.length_cons, hcl]; exact hi)).value := by
    intro i hi
    have := hon ((z₀ :: cells)[i]'(by rw [List.length_cons, hcl]; exact hi)) (List.getElem_mem _)
    rw [← this]
    exact congrArg G.at (zs_cell hz ws i (by omega)).symm
  have hstep : ∀ i < W, G reg col ((offset + i : ℕ) : ℤ)
      = ((z₀.value.val % 2 ^ bits / (2 ^ K) ^ i % 2 ^ K : ℕ) : ZMod p)
        + ((2 ^ K : ℕ) : ZMod p) * G reg col ((offset + (i + 1) : ℕ) : ℤ) := by
    intro i hi
    have := sumCells_value (F := ZMod p) reg col h0 offset z₀.value ws i (by omega)
    rw [hrow i (by omega), hrow (i + 1) (by omega)]
    have e : ∀ j (hj : j < W + 1), ((z₀ :: cells)[j]'(by rw [List.length_cons, hcl]; exact hj)).value
        = (z₀.value :: cells.map ACell.value)[j]'(by simp [hcl]; omega) := by
      intro j hj
      cases j <;> simp
    rw [e i (by omega), e (i + 1) (by omega)]
    refine this.trans ?_
    congr 1
    simp only [hws, digits, List.getElem_map, List.getElem_range]
  refine ⟨hstep, ?_⟩
  have hsum : z₀.value = ((z₀.value.val % 2 ^ bits : ℕ) : ZMod p)
      + ((2 ^ K : ℕ) : ZMod p) ^ W * G reg col ((offset + W : ℕ) : ℤ) := by
    have key : ∀ m ≤ W, G reg col ((offset + 0 : ℕ) : ℤ)
        = ((z₀.value.val % 2 ^ bits % (2 ^ K) ^ m : ℕ) : ZMod p)
          + ((2 ^ K : ℕ) : ZMod p) ^ m * G reg col ((offset + m : ℕ) : ℤ) := by
      intro m hm
      induction m with
      | zero => simp [Nat.mod_one]
      | succ m ih =>
        rw [ih (by omega), hstep m (by omega), pow_succ (2 ^ K) m, Nat.mod_mul]
        push_cast; ring
    have k1 := key W le_rfl
    have e0 : G reg col ((offset + 0 : ℕ) : ℤ) = z₀.value := hrow 0 (by omega)
    rw [e0] at k1
    have hlt : z₀.value.val % 2 ^ bits < (2 ^ K) ^ W := by
      refine lt_of_lt_of_le (Nat.mod_lt _ (by positivity)) ?_
      rw [← pow_mul]
      exact Nat.pow_le_pow_right (by norm_num) hW
    rw [Nat.mod_eq_of_lt hlt] at k1
    exact k1
  constructor
  · intro e
    rw [e, mul_zero, add_zero] at hsum
    by_contra hge
    have h1 : (z₀.value.val % 2 ^ bits : ℕ) < p :=
      lt_of_le_of_lt (Nat.mod_le _ _) (ZMod.val_lt _)
    have h2 := congrArg ZMod.val hsum
    rw [ZMod.val_natCast, Nat.mod_eq_of_lt h1] at h2
    have := Nat.mod_lt z₀.value.val (show 0 < 2 ^ bits by positivity)
    omega
  · intro hlt
    rw [Nat.mod_eq_of_lt hlt, ZMod.natCast_zmod_val] at hsum
    have : ((2 ^ K : ℕ) : ZMod p) ^ W * G reg col ((offset + W : ℕ) : ℤ) = 0 := by
      linear_combination -hsum
    rcases mul_eq_zero.1 this with h | h
    · exact absurd (eq_zero_of_pow_eq_zero h) h0
    · exact h

/-- **C35**, completeness: the assignment made by the code meets the gates, and it meets the
strict constraint exactly when the value has at most `wordNumBits` bits. -/
theorem decompose_complete {reprBits K : ℕ} {cfg : Config C S} {reg offset : ℕ}
    {z₀ : ACell C (ZMod p)} {strict : Bool} {wordNumBits numWindows n n' : ℕ}
    {zs : List (ACell C (ZMod p))} {ops : List (Op C S (ZMod p))}
    (h : decompose reprBits K cfg reg offset z₀ strict wordNumBits numWindows n = some (zs, n', ops))
    (hz : z₀.cell = ⟨reg, cfg.z, offset⟩) (G : Grid C (ZMod p)) (hG : Honest G ops)
    (hz₀ : G.at z₀.cell = z₀.value) :
    (Sat (gates K cfg) G ops ↔ (strict = true → z₀.value.val < 2 ^ wordNumBits)) ∧
      (∀ c ∈ zs, G.at c.cell = c.value) ∧ zs.head? = some z₀ ∧ zs.length = numWindows + 1 := by
  obtain ⟨words, hw, hl, hK, h0, -, rfl, rfl⟩ := decompose_run h
  obtain ⟨hK0, hK8, hbits, hnw⟩ := (decompose_succeeds _ _ _ _ _ _ _ _ _ _ h0).1 ⟨_, h⟩
  rw [decomposeWord_eq reprBits _ hK8 hK0 hbits] at hw
  cases hw
  have hd : ((List.range ((wordNumBits + (K - 1)) / K)).map fun i =>
        z₀.value.val % 2 ^ wordNumBits / (2 ^ K) ^ i % 2 ^ K).map (fun (w : ℕ) => (w : ZMod p))
      = digits K numWindows wordNumBits z₀.value := by
    rw [hnw, digits, List.map_map]; rfl
  rw [hd] at hG ⊢
  have hon : ∀ c ∈ z₀ :: sumCells reg cfg.z ((2 ^ K : ℕ) : ZMod p)⁻¹ offset z₀.value
      (digits K numWindows wordNumBits z₀.value), G.at c.cell = c.value := by
    intro c hc
    rcases List.mem_cons.1 hc with rfl | hc
    · exact hz₀
    · refine hG.1 _ _ ?_
      unfold decomposeOps
      exact List.mem_append_left _ (List.mem_append_right _ (List.mem_map.2 ⟨c, hc, rfl⟩))
  have hdl : (digits K numWindows wordNumBits z₀.value).length = numWindows := by simp [digits]
  refine ⟨?_, hon, rfl, by rw [List.length_cons, sumCells_length, hdl]⟩
  obtain ⟨hstep, hlast⟩ := honest_sums h0 (by
    rw [hnw]
    have := Nat.div_add_mod (wordNumBits + (K - 1)) K
    have := Nat.mod_lt (wordNumBits + (K - 1)) (Nat.pos_of_ne_zero hK0)
    omega) hz hon
  constructor
  · intro hs hst
    subst hst
    have := hs.const _ _ (by
      unfold decomposeOps
      exact List.mem_append_right _ (by rw [if_pos rfl]; exact List.mem_singleton.2 rfl))
    rw [zs_last hz, hdl] at this
    exact hlast.1 this
  · intro hst
    constructor
    · intro g hg reg' row hop
      cases List.mem_singleton.1 hg
      simp only [Grid.query, add_zero, List.mem_singleton, forall_eq]
      have : ∃ i < numWindows, reg' = reg ∧ row = ((offset + i : ℕ) : ℤ) := by
        unfold decomposeOps at hop
        rw [hdl] at hop
        cases strict <;> simp at hop <;>
          · obtain ⟨i, hi, e1, e2⟩ := hop
            exact ⟨i, by omega, e1.symm, by push_cast; exact e2.symm⟩
      obtain ⟨i, hi, rfl, rfl⟩ := this
      rw [rangeCheck_iff _ _ Nat.one_le_two_pow]
      refine ⟨z₀.value.val % 2 ^ wordNumBits / (2 ^ K) ^ i % 2 ^ K, Nat.mod_lt _ (by positivity), ?_⟩
      have e2 : ((offset + i : ℕ) : ℤ) + 1 = ((offset + (i + 1) : ℕ) : ℤ) := by push_cast; ring
      rw [e2, hstep i hi]; ring
    · intro a b hop
      unfold decomposeOps at hop
      cases strict <;> simp at hop
    · intro c v hop
      unfold decomposeOps at hop
      cases strict
      · simp at hop
      · simp only [if_true, List.mem_append, List.mem_map, reduceCtorEq, and_false, exists_false,
          false_or, List.mem_singleton, Op.const.injEq] at hop
        obtain ⟨rfl, rfl⟩ := hop
        rw [zs_last hz, hdl]
        exact hlast.2 (hst rfl)
    · intro a b hop
      unfold decomposeOps at hop
      cases strict <;> simp at hop

/-- Witnessing or copying the value first does not change the constraints on it: in strict mode
the copied cell is an integer below `2^(K W)`. -/
theorem copyDecompose_sound {reprBits K : ℕ} {cfg : Config C S} {reg offset : ℕ}
    {alpha : ACell C (ZMod p)} {wordNumBits numWindows n n' : ℕ}
    {zs : List (ACell C (ZMod p))} {ops : List (Op C S (ZMod p))}
    (h : copyDecompose reprBits K cfg reg offset alpha true wordNumBits numWindows n
      = some (zs, n', ops))
    (G : Grid C (ZMod p)) (hs : Sat (gates K cfg) G ops) :
    ∃ m < 2 ^ (K * numWindows), G.at alpha.cell = (m : ℕ) := by
  unfold copyDecompose at h
  obtain ⟨z₀, n₁, o₁, o₂, e₁, h₁, rfl⟩ := bind_some h
  cases e₁
  obtain ⟨z, -, -, -, -, hst⟩ := decompose_sound h₁ rfl G hs.right
  obtain ⟨m, hm, e⟩ := hst rfl
  have := hs.left.equal ⟨reg, cfg.z, offset⟩ alpha.cell (by simp [assignAdvice])
  exact ⟨m, hm, this ▸ e⟩

theorem witnessDecompose_sound {reprBits K : ℕ} {cfg : Config C S} {reg offset : ℕ}
    {alpha : ZMod p} {wordNumBits numWindows n n' : ℕ}
    {zs : List (ACell C (ZMod p))} {ops : List (Op C S (ZMod p))}
    (h : witnessDecompose reprBits K cfg reg offset alpha true wordNumBits numWindows n
      = some (zs, n', ops))
    (G : Grid C (ZMod p)) (hs : Sat (gates K cfg) G ops) :
    ∃ z₀ ∈ zs.head?, ∃ m < 2 ^ (K * numWindows), G.at z₀.cell = (m : ℕ) := by
  unfold witnessDecompose at h
  obtain ⟨z₀, n₁, o₁, o₂, e₁, h₁, rfl⟩ := bind_some h
  cases e₁
  obtain ⟨z, -, -, -, -, hst⟩ := decompose_sound h₁ rfl G hs.right
  obtain ⟨words, -, -, -, -, -, rfl, -⟩ := decompose_run h₁
  exact ⟨_, rfl, hst rfl⟩

/-- Without strict mode nothing follows for the value: the gates hold for a suitable assignment of
the later sums whatever the first. -/
theorem gates_free {K : ℕ} (h2 : ((2 ^ K : ℕ) : F) ≠ 0) (z₀ : F) (cfg : Config C S) (W : ℕ) :
    ∃ q : ℕ → F, q 0 = z₀ ∧ ∀ i < W, rangeCheck (q i - q (i + 1) * ((2 ^ K : ℕ) : F)) (2 ^ K) = 0 := by
  refine ⟨fun i => z₀ / ((2 ^ K : ℕ) : F) ^ i, by simp, fun i _ => ?_⟩
  rw [rangeCheck_iff _ _ Nat.one_le_two_pow]
  refine ⟨0, by positivity, ?_⟩
  have : z₀ / ((2 ^ K : ℕ) : F) ^ (i + 1) * ((2 ^ K : ℕ) : F) = z₀ / ((2 ^ K : ℕ) : F) ^ i := by
    rw [pow_succ, ← div_div, div_mul_cancel₀ _ h2]
  simp only [this, sub_self, Nat.cast_zero]

end

/-! ## Example: 6 bits in two windows of three bits, modulo 97 -/

def exCell : ACell Unit (ZMod 17) := ⟨⟨0, (), 0⟩, 13⟩

example : ((decompose 5 3 (⟨(), ()⟩ : Config Unit Unit) 0 0 exCell true 5 2 0).map fun r =>
    r.1.map ACell.value) = some [13, 1, 0] := by decide +kernel

/-- A number of windows which satisfies the assertion but is too small panics. -/
example : (decompose 5 3 (⟨(), ()⟩ : Config Unit Unit) 0 0 exCell true 5 1 0).isNone := by
  decide +kernel

end Verif.RunningSum
