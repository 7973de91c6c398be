import Verif.Multiexp.Lemmas
import Mathlib.Algebra.Module.Basic
import Mathlib.Algebra.Field.Defs
import Mathlib.Analysis.SpecialFunctions.Log.Basic

/-!
# C05: multi-exponentiation equals the naive sum

Specification: `naive` is the sum of the scalars' integer values times the bases.
-/

namespace Verif.Multiexp

open Verif.Multicore (Reduces)

variable {A : Type*} [AddCommGroup A]

/-- Specification: `Σᵢ nᵢ • Bᵢ`. -/
def naive : List ℕ → List A → A
  | n :: ns, b :: bs => n • b + naive ns bs
  | _, _ => 0

theorem naive_eq (coeffs : List (List ℕ)) (bases : List A) :
    ((coeffs.zip bases).map fun p => leBytes p.1 • p.2).sum
      = naive (coeffs.map leBytes) bases := by
  induction coeffs generalizing bases with
  | nil => simp [naive]
  | cons c cs ih => cases bases <;> simp [naive, ih]

/-- The window conditions the floating-point logarithm meets: see `window_ok`. -/
def WindowOk (len lnCeil : ℕ) : Prop := 32 ≤ len → 1 ≤ lnCeil ∧ lnCeil ≤ 57

/-- C05: whatever the thread count, the window (within its bounds) and the reduction schedule,
on lists of equal length and 32-byte scalars `best_multiexp` does not panic and any result it
gives is the naive sum. -/
theorem bestMultiexp_eq (numThreads lnCeil : ℕ) (coeffs : List (List ℕ)) (bases : List A)
    (hlen : coeffs.length = bases.length) (hw : ∀ s ∈ coeffs, WF s)
    (hc : WindowOk bases.length lnCeil) (r : Option A)
    (h : BestMultiexp numThreads lnCeil coeffs bases r) :
    r = some (naive (coeffs.map leBytes) bases) := by
  have hc57 : window bases.length lnCeil ≤ 57 ∧ window bases.length lnCeil ≠ 0 := by
    unfold window WindowOk at *
    split_ifs <;> omega
  generalize hcd : window bases.length lnCeil = c at *
  have hN : ∀ p ∈ coeffs.zip bases, leBytes p.1 < 2 ^ ((256 / c + 1) * c) := by
    intro p hp
    obtain ⟨h1, h2⟩ := hw p.1 (List.of_mem_zip hp).1
    have := leBytes_lt p.1 h2
    rw [h1] at this
    refine lt_of_lt_of_le this ?_
    rw [show (256 : ℕ) ^ 32 = 2 ^ 256 by norm_num]
    apply Nat.pow_le_pow_right (by norm_num)
    have := Nat.div_add_mod 256 c
    have h3 := Nat.mod_lt 256 (Nat.pos_of_ne_zero hc57.2)
    have : (256 / c + 1) * c = c * (256 / c) + c := by ring
    omega
  have hsum := sum_segments c (256 / c + 1) (coeffs.zip bases) hN
  cases h with
  | mismatch h => exact absurd hlen h
  | divZero _ h => rw [hcd] at h; exact absurd h hc57.2
  | inner _ _ h =>
    rw [hcd] at h
    simp only [bucketsSum_eq c hc57.1 coeffs bases hw, collect_map_some] at h
    simp at h
  | parallel segs r _ _ _ h hr =>
    rw [hcd] at h
    simp only [bucketsSum_eq c hc57.1 coeffs bases hw, Option.map_some, collect_map_some] at h
    rw [hr.eq_sum, ← Option.some.inj h]
    simp only [doubleN_eq, Option.some.injEq]
    rw [List.map_reverse, List.sum_reverse, ← List.sum_toFinset _ List.nodup_range,
      List.toFinset_range, ← naive_eq, ← hsum]
    exact Finset.sum_congr rfl fun i _ => by rw [mul_comm]
  | serial segs _ _ _ h =>
    rw [hcd] at h
    simp only [bucketsSum_eq c hc57.1 coeffs bases hw, collect_map_some] at h
    rw [← Option.some.inj h, hcd]
    simp only [doubleN_eq, Option.some.injEq]
    rw [horner_segments, smul_zero, zero_add, hsum, naive_eq]

/-- C05: `best_multiexp` always has an outcome (the relation is total): it panics when the
lengths differ, and otherwise returns. -/
theorem bestMultiexp_total (numThreads lnCeil : ℕ) (coeffs : List (List ℕ)) (bases : List A)
    (hw : ∀ s ∈ coeffs, WF s) (hc : WindowOk bases.length lnCeil) :
    (coeffs.length = bases.length →
      BestMultiexp numThreads lnCeil coeffs bases (some (naive (coeffs.map leBytes) bases))) ∧
    (coeffs.length ≠ bases.length →
      ∀ r, BestMultiexp numThreads lnCeil coeffs bases r ↔ r = none) := by
  constructor
  · intro hlen
    have hc57 : window bases.length lnCeil ≤ 57 ∧ window bases.length lnCeil ≠ 0 := by
      unfold window WindowOk at *
      split_ifs <;> omega
    have : ∃ r, BestMultiexp numThreads lnCeil coeffs bases r := by
      by_cases ht : coeffs.length ≤ numThreads
      · refine ⟨_, .serial ((List.range (256 / window bases.length lnCeil + 1)).reverse.map fun i =>
            ((coeffs.zip bases).map fun p => (leBytes p.1 / 2 ^ (i * window bases.length lnCeil)
              % 2 ^ window bases.length lnCeil) • p.2).sum) hlen hc57.2 ht ?_⟩
        simp only [bucketsSum_eq _ hc57.1 coeffs bases hw, collect_map_some]
      · obtain ⟨r, hr⟩ := Reduces.exists (0 : A) (· + ·)
          ((List.range (256 / window bases.length lnCeil + 1)).reverse.map fun i =>
            doubleN (window bases.length lnCeil * i)
            ((coeffs.zip bases).map fun p => (leBytes p.1 / 2 ^ (i * window bases.length lnCeil)
              % 2 ^ window bases.length lnCeil) • p.2).sum)
        refine ⟨_, .parallel _ r hlen hc57.2 (by omega) ?_ hr⟩
        simp only [bucketsSum_eq _ hc57.1 coeffs bases hw, Option.map_some, collect_map_some]
    obtain ⟨r, hr⟩ := this
    rw [← bestMultiexp_eq numThreads lnCeil coeffs bases hlen hw hc r hr]
    exact hr
  · intro hlen r
    constructor
    · intro h
      cases h with
      | mismatch _ => rfl
      | divZero h => exact absurd h hlen
      | inner h => exact absurd h hlen
      | parallel _ _ h => exact absurd h hlen
      | serial _ h => exact absurd h hlen
    · rintro rfl
      exact .mismatch hlen

/-- The mathematical `⌈ln len⌉` meets the window condition for every length below `2^32`. -/
theorem window_ok (len : ℕ) (h : len < 2 ^ 32) : WindowOk len ⌈Real.log len⌉₊ := by
  intro h32
  have hpos : (0 : ℝ) < len := by exact_mod_cast (by omega : 0 < len)
  constructor
  · rw [Nat.one_le_ceil_iff]
    exact Real.log_pos (by exact_mod_cast (by omega : 1 < len))
  · rw [Nat.ceil_le]
    have h1 : Real.log len ≤ Real.log (2 ^ 32 : ℝ) := by
      apply Real.log_le_log hpos
      exact_mod_cast h.le
    rw [Real.log_pow] at h1
    have h2 : Real.log 2 ≤ 1 := by
      have := Real.log_le_sub_one_of_pos (show (0 : ℝ) < 2 by norm_num)
      linarith
    push_cast at h1 ⊢
    nlinarith

/-- C05 for field scalars: if the bytes are the canonical representation of field elements
acting on the group, the result is `Σ sᵢ • Bᵢ`. -/
theorem bestMultiexp_field {F : Type*} [Field F] [Module F A] (toRepr : F → List ℕ)
    (hrepr : ∀ x, WF (toRepr x) ∧ ((leBytes (toRepr x) : ℕ) : F) = x)
    (numThreads lnCeil : ℕ) (coeffs : List F) (bases : List A)
    (hlen : coeffs.length = bases.length) (hc : WindowOk bases.length lnCeil) (r : Option A)
    (h : BestMultiexp numThreads lnCeil (coeffs.map toRepr) bases r) :
    r = some ((coeffs.zip bases).map fun p => p.1 • p.2).sum := by
  rw [bestMultiexp_eq numThreads lnCeil _ bases (by simpa using hlen)
    (by intro s hs; obtain ⟨x, _, rfl⟩ := List.mem_map.1 hs; exact (hrepr x).1) hc r h]
  congr 1
  clear h hc hlen
  induction coeffs generalizing bases with
  | nil => simp [naive]
  | cons x xs ih =>
    cases bases with
    | nil => simp [naive]
    | cons b bs =>
      simp only [List.map_cons, naive, List.zip_cons_cons, List.sum_cons, ih]
      rw [← Nat.cast_smul_eq_nsmul F, (hrepr x).2]

/-! ## `small_multiexp` -/

theorem smallInner_eq (byteIdx bitIdx : ℕ) (allBases : List A) (coeffs : List (List ℕ)) (idx : ℕ)
    (acc : A) (bases : List A) (hd : allBases.drop idx = bases)
    (hlen : coeffs.length ≤ bases.length)
    (hw : ∀ s ∈ coeffs, byteIdx < s.length) :
    smallInner byteIdx bitIdx allBases coeffs idx acc = some (acc +
      ((coeffs.zip bases).map fun p => (p.1.getD byteIdx 0 / 2 ^ bitIdx % 2) • p.2).sum) := by
  induction coeffs generalizing idx acc bases with
  | nil => simp [smallInner]
  | cons c cs ih =>
    cases bases with
    | nil => simp at hlen
    | cons b bs =>
      have hb : allBases[idx]? = some b := by
        have := congrArg (fun l => l[0]?) hd
        simpa using this
      have hd' : allBases.drop (idx + 1) = bs := by
        rw [← List.drop_drop, hd]; rfl
      have hidx := hw c (by simp)
      simp only [smallInner, List.getElem?_eq_getElem hidx, hb]
      have hgd : c.getD byteIdx 0 = c[byteIdx] := by
        simp [List.getD, List.getElem?_eq_getElem hidx]
      have hlen' : cs.length ≤ bs.length := by simpa using hlen
      have hw' : ∀ s ∈ cs, byteIdx < s.length := fun s hs => hw s (by simp [hs])
      have h2 := Nat.mod_two_eq_zero_or_one (c[byteIdx] / 2 ^ bitIdx)
      rcases h2 with h2 | h2
      · simp only [h2, ne_eq, not_true, if_false, List.zip_cons_cons, List.map_cons,
          List.sum_cons, hgd, zero_smul, zero_add]
        exact ih (idx + 1) acc bs hd' hlen' hw'
      · simp only [h2, ne_eq, one_ne_zero, not_false_eq_true, if_true, List.zip_cons_cons,
          List.map_cons, List.sum_cons, hgd, one_smul]
        rw [ih (idx + 1) (acc + b) bs hd' hlen' hw', add_assoc]

/-- Bit `k` of the scalar, read byte by byte. -/
theorem byte_bit (l : List ℕ) (hw : WF l) (i j : ℕ) (hi : i < 32) (hj : j < 8) :
    l.getD i 0 / 2 ^ j % 2 = leBytes l / 2 ^ (8 * i + j) % 2 := by
  have hb : l.getD i 0 = leBytes l / 256 ^ i % 256 := by
    have h1 := leBytes_take (l.drop i) (fun b hb' => hw.2 b (List.mem_of_mem_drop hb')) 1
    rw [pow_one] at h1
    rw [← leBytes_drop l hw.2, ← h1]
    have hi' : i < l.length := by rw [hw.1]; exact hi
    rw [List.drop_eq_getElem_cons hi', List.take_succ_cons, List.take_zero]
    simp [leBytes, List.getD, List.getElem?_eq_getElem hi']
  rw [hb, show (256 : ℕ) ^ i = 2 ^ (8 * i) by rw [pow_mul]; norm_num, pow_add,
    ← Nat.div_div_eq_div_mul]
  generalize leBytes l / 2 ^ (8 * i) = M
  rw [show (256 : ℕ) = 2 ^ j * 2 ^ (8 - j) by rw [← pow_add, show j + (8 - j) = 8 by omega]; norm_num]
  rw [Nat.mod_mul_right_div_self]
  exact Nat.mod_mod_of_dvd _ (dvd_pow_self 2 (by omega))

theorem foldlM_bits (f : ℕ → A) (g : A → ℕ → Option A) (n : ℕ)
    (hg : ∀ acc j, j < n → g acc j = some (2 • acc + f j)) (acc : A) :
    (List.range n).reverse.foldlM g acc
      = some (2 ^ n • acc + ∑ j ∈ Finset.range n, 2 ^ j • f j) := by
  induction n generalizing acc with
  | zero => simp
  | succ n ih =>
    rw [List.range_succ, List.reverse_append]
    simp only [List.reverse_cons, List.reverse_nil, List.nil_append, List.singleton_append,
      List.foldlM_cons, hg acc n (by omega), Option.bind_eq_bind, Option.bind_some]
    rw [ih fun a j hj => hg a j (by omega)]
    rw [Finset.sum_range_succ, smul_add, smul_smul, pow_succ]
    congr 1; abel

theorem foldlM_bytes (f : ℕ → A) (g : A → ℕ → Option A) (n : ℕ)
    (hg : ∀ acc j, j < n → g acc j = some (2 ^ 8 • acc + f j)) (acc : A) :
    (List.range n).reverse.foldlM g acc
      = some (2 ^ (8 * n) • acc + ∑ j ∈ Finset.range n, 2 ^ (8 * j) • f j) := by
  induction n generalizing acc with
  | zero => simp
  | succ n ih =>
    rw [List.range_succ, List.reverse_append]
    simp only [List.reverse_cons, List.reverse_nil, List.nil_append, List.singleton_append,
      List.foldlM_cons, hg acc n (by omega), Option.bind_eq_bind, Option.bind_some]
    rw [ih fun a j hj => hg a j (by omega)]
    rw [Finset.sum_range_succ, smul_add, smul_smul, ← pow_add, show 8 * (n + 1) = 8 * n + 8 by ring]
    congr 1; abel

/-- C05: `small_multiexp` is the naive sum when there are at least as many bases as scalars
(extra bases are ignored, no check is made). -/
theorem smallMultiexp_eq (coeffs : List (List ℕ)) (bases : List A)
    (hlen : coeffs.length ≤ bases.length) (hw : ∀ s ∈ coeffs, WF s) :
    smallMultiexp coeffs bases = some (naive (coeffs.map leBytes) bases) := by
  have hpw : ∀ p ∈ coeffs.zip bases, WF p.1 := fun p hp => hw p.1 (List.of_mem_zip hp).1
  have inner : ∀ i, i < 32 → ∀ acc : A,
      (List.range 8).reverse.foldlM (fun acc bitIdx =>
        smallInner i bitIdx bases coeffs 0 (acc + acc)) acc
      = some (2 ^ 8 • acc + ∑ j ∈ Finset.range 8, 2 ^ j •
          ((coeffs.zip bases).map fun p => (leBytes p.1 / 2 ^ (8 * i + j) % 2) • p.2).sum) := by
    intro i hi acc
    apply foldlM_bits (fun j =>
          ((coeffs.zip bases).map fun p => (leBytes p.1 / 2 ^ (8 * i + j) % 2) • p.2).sum)
    intro acc j hj
    rw [smallInner_eq i j bases coeffs 0 _ bases rfl hlen
      (fun s hs => by rw [(hw s hs).1]; exact hi), two_nsmul]
    congr 3
    apply List.map_congr_left
    intro p hp
    rw [byte_bit p.1 (hpw p hp) i j hi hj]
  unfold smallMultiexp
  rw [foldlM_bytes (fun i => ∑ j ∈ Finset.range 8, 2 ^ j •
          ((coeffs.zip bases).map fun p => (leBytes p.1 / 2 ^ (8 * i + j) % 2) • p.2).sum) _ 32
    (fun acc i hi => inner i hi acc)]
  rw [smul_zero, zero_add]
  have h256 := sum_segments (A := A) 1 256 (coeffs.zip bases) (by
    intro p hp
    have := leBytes_lt p.1 (hpw p hp).2
    rw [(hpw p hp).1] at this
    refine lt_of_lt_of_le this ?_
    norm_num)
  rw [naive_eq] at h256
  rw [← h256]
  congr 1
  simp only [mul_one, pow_one]
  rw [show (256 : ℕ) = 32 * 8 by norm_num]
  have key : ∀ n, ∑ i ∈ Finset.range n, 2 ^ (8 * i) • ∑ j ∈ Finset.range 8, 2 ^ j •
          ((coeffs.zip bases).map fun p => (leBytes p.1 / 2 ^ (8 * i + j) % 2) • p.2).sum
      = ∑ k ∈ Finset.range (n * 8), 2 ^ k •
          ((coeffs.zip bases).map fun p => (leBytes p.1 / 2 ^ k % 2) • p.2).sum := by
    intro n
    induction n with
    | zero => simp
    | succ n ih =>
      rw [Finset.sum_range_succ, ih, show (n + 1) * 8 = n * 8 + 8 by ring, Finset.sum_range_add]
      congr 1
      rw [Finset.smul_sum]
      apply Finset.sum_congr rfl
      intro j _
      rw [smul_smul, ← pow_add, mul_comm 8 n]
  exact key 32

/-- Unlike `best_multiexp`, `small_multiexp` does not check the lengths: with fewer bases than
scalars it panics only when a scalar without a base is non-zero. -/
theorem smallMultiexp_short :
    smallMultiexp [List.replicate 32 0] ([] : List ℤ) = some 0 ∧
    smallMultiexp [1 :: List.replicate 31 0] ([] : List ℤ) = none := by
  constructor <;> decide +kernel

/-- A 32-byte scalar list and window meeting the hypotheses. -/
example : (∀ s ∈ [List.replicate 32 7], WF s) ∧ WindowOk 1 0 ∧ WindowOk 40 4 := by
  refine ⟨?_, ?_, ?_⟩
  · simp [WF]
  · intro h; omega
  · intro h; omega

end Verif.Multiexp
