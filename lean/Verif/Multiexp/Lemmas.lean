import Verif.Multiexp.Model
import Verif.Multicore.Props
import Mathlib.Algebra.BigOperators.Intervals
import Mathlib.Algebra.BigOperators.Group.Finset.Basic
import Mathlib.Algebra.Module.Basic
import Mathlib.Algebra.Module.BigOperators
import Mathlib.Tactic.Abel
import Mathlib.Tactic.Linarith

/-! # Helper lemmas for multi-exponentiation -/

namespace Verif.Multiexp

open Verif.Multicore (Reduces)

variable {A : Type*} [AddCommGroup A]

theorem leBytes_lt (l : List ℕ) (h : ∀ b ∈ l, b < 256) : leBytes l < 256 ^ l.length := by
  induction l with
  | nil => simp [leBytes]
  | cons b l ih =>
    have h1 := h b (by simp)
    have h2 := ih fun x hx => h x (by simp [hx])
    simp only [leBytes, List.length_cons, pow_succ]
    omega

theorem leBytes_take (l : List ℕ) (h : ∀ b ∈ l, b < 256) (k : ℕ) :
    leBytes (l.take k) = leBytes l % 256 ^ k := by
  induction l generalizing k with
  | nil => simp [leBytes]
  | cons b l ih =>
    cases k with
    | zero => simp [leBytes, Nat.mod_one]
    | succ k =>
      have h1 := h b (by simp)
      simp only [List.take_succ_cons, leBytes, ih (fun x hx => h x (by simp [hx])), pow_succ]
      rw [mul_comm (256 ^ k) 256, Nat.mod_mul]
      have e1 : (b + 256 * leBytes l) % 256 = b := by omega
      have e2 : (b + 256 * leBytes l) / 256 = leBytes l := by omega
      rw [e1, e2]

theorem leBytes_drop (l : List ℕ) (h : ∀ b ∈ l, b < 256) (k : ℕ) :
    leBytes (l.drop k) = leBytes l / 256 ^ k := by
  induction l generalizing k with
  | nil => simp [leBytes]
  | cons b l ih =>
    cases k with
    | zero => simp
    | succ k =>
      have h1 := h b (by simp)
      simp only [List.drop_succ_cons, leBytes, ih (fun x hx => h x (by simp [hx])), pow_succ]
      rw [mul_comm (256 ^ k) 256, ← Nat.div_div_eq_div_mul]
      congr 1; omega

/-- `get_at` reads the `segment`-th base-`2^c` digit, for windows of at most 57 bits. -/
theorem getAt_eq (c segment : ℕ) (bytes : List ℕ) (hc : c ≤ 57) (hl : bytes.length = 32)
    (hb : ∀ b ∈ bytes, b < 256) :
    getAt c segment bytes = some (leBytes bytes / 2 ^ (segment * c) % 2 ^ c) := by
  unfold getAt
  simp only
  by_cases h : segment * c / 8 ≥ 32
  · simp only [h, if_true, Option.some.injEq]
    have hlt := leBytes_lt bytes hb
    rw [hl] at hlt
    have : (256 : ℕ) ^ 32 ≤ 2 ^ (segment * c) := by
      rw [show (256 : ℕ) = 2 ^ 8 by norm_num, ← pow_mul]
      exact Nat.pow_le_pow_right (by norm_num) (by omega)
    rw [Nat.div_eq_of_lt (lt_of_lt_of_le hlt this)]
    simp
  · have hn : ¬ bytes.length < segment * c / 8 := by omega
    simp only [h, if_false, hn, Option.some.injEq]
    set s := segment * c with hs
    rw [leBytes_take _ (fun b hb' => hb b (List.mem_of_mem_drop hb')), leBytes_drop _ hb]
    set N := leBytes bytes
    have h256 : (256 : ℕ) ^ (s / 8) = 2 ^ (s / 8 * 8) := by
      rw [show (256 : ℕ) = 2 ^ 8 by norm_num, ← pow_mul]; congr 1; ring
    have hs2 : s = s / 8 * 8 + (s - s / 8 * 8) := by omega
    have hr : s - s / 8 * 8 < 8 := by omega
    set r := s - s / 8 * 8
    rw [h256]
    have e : N / 2 ^ s = N / 2 ^ (s / 8 * 8) / 2 ^ r := by
      rw [Nat.div_div_eq_div_mul, ← pow_add, ← hs2]
    rw [e]
    set M := N / 2 ^ (s / 8 * 8)
    have h64 : (256 : ℕ) ^ 8 = 2 ^ r * 2 ^ (64 - r) := by
      rw [← pow_add, show r + (64 - r) = 64 by omega]; norm_num
    rw [h64, Nat.mod_mul_right_div_self]
    exact Nat.mod_mod_of_dvd _ (pow_dvd_pow 2 (by omega))

/-- Digits recombine to the number. -/
theorem sum_digits (c N m : ℕ) :
    ∑ i ∈ Finset.range m, (N / 2 ^ (i * c) % 2 ^ c) * 2 ^ (i * c) = N % 2 ^ (m * c) := by
  induction m with
  | zero => simp [Nat.mod_one]
  | succ m ih =>
    rw [Finset.sum_range_succ, ih, show (m + 1) * c = m * c + c by ring, pow_add, Nat.mod_mul]
    ring

/-- Meaning of a bucket. -/
def Bucket.val : Bucket A → A
  | .none => 0
  | .affine a => a
  | .projective a => a

theorem val_addAssign (b : Bucket A) (x : A) : (b.addAssign x).val = b.val + x := by
  cases b <;> simp [Bucket.addAssign, Bucket.val]

theorem bucket_add (b : Bucket A) (x : A) : b.add x = x + b.val := by
  cases b <;> simp [Bucket.add, Bucket.val]

/-- Weighted sum of buckets: bucket `j` counts `j + 1` times. -/
def weighted : List (Bucket A) → A
  | [] => 0
  | b :: bs => b.val + weighted bs + (bs.map Bucket.val).sum

theorem weighted_set (bs : List (Bucket A)) (j : ℕ) (b : Bucket A) (x : A)
    (h : bs[j]? = some b) :
    weighted (bs.set j (b.addAssign x)) = weighted bs + (j + 1) • x ∧
    ((bs.set j (b.addAssign x)).map Bucket.val).sum = (bs.map Bucket.val).sum + x := by
  induction bs generalizing j with
  | nil => simp at h
  | cons a bs ih =>
    cases j with
    | zero =>
      simp at h; subst h
      simp only [List.set_cons_zero, weighted, List.map_cons, List.sum_cons, val_addAssign]
      constructor
      · simp only [zero_add, one_smul]; abel
      · abel
    | succ j =>
      simp only [List.getElem?_cons_succ] at h
      obtain ⟨h1, h2⟩ := ih j h
      simp only [List.set_cons_succ, weighted, List.map_cons, List.sum_cons, h1, h2]
      constructor
      · rw [succ_nsmul (M := A) x (j + 1)]; abel
      · abel

theorem summation_by_parts (bs : List (Bucket A)) :
    bs.reverse.foldl (fun (st : A × A) b =>
      (st.1 + b.add st.2, b.add st.2)) (0, 0)
    = (weighted bs, (bs.map Bucket.val).sum) := by
  rw [List.foldl_reverse]
  induction bs with
  | nil => rfl
  | cons b bs ih =>
    simp only [List.foldr_cons]
    rw [ih]
    simp only [weighted, List.map_cons, List.sum_cons, bucket_add]
    ext
    · simp only; abel
    · simp only; abel

/-- Well-formed scalar bytes. -/
def WF (l : List ℕ) : Prop := l.length = 32 ∧ ∀ b ∈ l, b < 256

theorem fillBuckets_spec (c i : ℕ) (hc : c ≤ 57) (pairs : List (List ℕ × A))
    (hw : ∀ p ∈ pairs, WF p.1) (bs : List (Bucket A)) (hb : bs.length = 2 ^ c - 1) :
    ∃ out, fillBuckets c i pairs bs = some out ∧
      weighted out = weighted bs +
        (pairs.map fun p => (leBytes p.1 / 2 ^ (i * c) % 2 ^ c) • p.2).sum := by
  induction pairs generalizing bs with
  | nil => exact ⟨bs, rfl, by simp⟩
  | cons p pairs ih =>
    obtain ⟨coeff, base⟩ := p
    have hp := hw (coeff, base) (by simp)
    have hrest : ∀ p ∈ pairs, WF p.1 := fun q hq => hw q (by simp [hq])
    simp only [fillBuckets, getAt_eq c i coeff hc hp.1 hp.2, List.map_cons, List.sum_cons]
    have hlt : leBytes coeff / 2 ^ (i * c) % 2 ^ c < 2 ^ c := Nat.mod_lt _ (by positivity)
    set seg := leBytes coeff / 2 ^ (i * c) % 2 ^ c
    by_cases h0 : seg = 0
    · simp only [h0, ne_eq, not_true, if_false]
      obtain ⟨out, ho, hs⟩ := ih hrest bs hb
      exact ⟨out, ho, by simp [hs]⟩
    · have hidx : seg - 1 < bs.length := by omega
      have hg : bs[seg - 1]? = some bs[seg - 1] := List.getElem?_eq_getElem hidx
      simp only [ne_eq, h0, not_false_eq_true, if_true, hg]
      obtain ⟨out, ho, hs⟩ := ih hrest (bs.set (seg - 1) (bs[seg - 1].addAssign base)) (by simpa using hb)
      refine ⟨out, ho, ?_⟩
      rw [hs, (weighted_set bs (seg - 1) _ base hg).1]
      have : seg - 1 + 1 = seg := by omega
      rw [this]; abel

theorem weighted_replicate (n : ℕ) : weighted (List.replicate n (Bucket.none : Bucket A)) = 0 ∧
    ((List.replicate n (Bucket.none : Bucket A)).map Bucket.val).sum = 0 := by
  induction n with
  | zero => simp [weighted]
  | succ n ih =>
    simp only [List.replicate_succ, weighted, List.map_cons, List.sum_cons, ih.1, ih.2]
    simp [Bucket.val]

/-- One segment: the sum of digit times base. -/
theorem bucketsSum_eq (c : ℕ) (hc : c ≤ 57) (coeffs : List (List ℕ)) (bases : List A)
    (hw : ∀ s ∈ coeffs, WF s) (i : ℕ) :
    bucketsSum c coeffs bases i = some
      ((coeffs.zip bases).map fun p => (leBytes p.1 / 2 ^ (i * c) % 2 ^ c) • p.2).sum := by
  obtain ⟨out, ho, hs⟩ := fillBuckets_spec (A := A) c i hc (coeffs.zip bases)
    (fun p hp => hw p.1 (List.of_mem_zip hp).1)
    (List.replicate (2 ^ c - 1) Bucket.none) (by simp)
  simp only [bucketsSum, ho]
  rw [summation_by_parts]
  simp [hs, (weighted_replicate (A := A) (2 ^ c - 1)).1]

theorem doubleN_eq (k : ℕ) (a : A) : doubleN k a = 2 ^ k • a := by
  induction k with
  | zero => simp [doubleN]
  | succ k ih =>
    have : doubleN (k + 1) a = doubleN k a + doubleN k a := by
      simp [doubleN, List.range_succ]
    rw [this, ih, pow_succ, mul_comm, mul_smul, two_nsmul]

theorem collect_map_some {α β : Type*} (l : List β) (f : β → α) :
    collect (l.map fun x => some (f x)) = some (l.map f) := by
  induction l with
  | nil => rfl
  | cons x l ih => simp [collect, ih]

/-- Sum over segments of digit-weighted sums is the full sum. -/
theorem sum_segments (c m : ℕ) (pairs : List (List ℕ × A))
    (hN : ∀ p ∈ pairs, leBytes p.1 < 2 ^ (m * c)) :
    ∑ i ∈ Finset.range m, 2 ^ (i * c) •
        (pairs.map fun p => (leBytes p.1 / 2 ^ (i * c) % 2 ^ c) • p.2).sum
      = (pairs.map fun p => leBytes p.1 • p.2).sum := by
  induction pairs with
  | nil => simp
  | cons p pairs ih =>
    simp only [List.map_cons, List.sum_cons, smul_add, Finset.sum_add_distrib]
    rw [ih fun q hq => hN q (by simp [hq])]
    congr 1
    simp only [smul_smul]
    rw [← Finset.sum_smul]
    congr 1
    have := sum_digits c (leBytes p.1) m
    rw [Nat.mod_eq_of_lt (hN p (by simp))] at this
    refine Eq.trans (Finset.sum_congr rfl fun i _ => mul_comm _ _) this

theorem horner_segments (c : ℕ) (f : ℕ → A) (m : ℕ) (a : A) :
    ((List.range m).reverse.map f).foldl (fun sum b => 2 ^ c • sum + b) a
      = 2 ^ (m * c) • a + ∑ i ∈ Finset.range m, 2 ^ (i * c) • f i := by
  induction m generalizing a with
  | zero => simp
  | succ m ih =>
    rw [List.range_succ, List.reverse_append]
    simp only [List.reverse_cons, List.reverse_nil, List.nil_append, List.singleton_append,
      List.map_cons, List.foldl_cons]
    rw [ih, Finset.sum_range_succ, smul_add, smul_smul, ← pow_add]
    rw [show (m + 1) * c = m * c + c by ring]
    abel

end Verif.Multiexp
