import Verif.Ipa.Model
import Verif.Transcript.Props
import Verif.Vanishing.Props
import Verif.Commitment.Props
import Verif.PolyArith.Props
import Mathlib.Tactic.Module

/-!
# Algebra of the inner-product argument
-/

namespace Verif.Ipa

open Verif.Msm Verif.Transcript Verif.Multicore Verif.PolyArith Verif.Vanishing

variable {F K A : Type} [Field F] [AddCommGroup A] [Module F A]

/-- The vector `s`: entry `i` is the product of the challenges selected by the bits of `i`, the
last challenge for the lowest bit (`sOf_getD`). -/
def sOf : List F → List F
  | [] => [1]
  | u :: us => sOf us ++ (sOf us).map (· * u)

theorem sOf_length (u : List F) : (sOf u).length = 2 ^ u.length := by
  induction u with
  | nil => rfl
  | cons u us ih => simp [sOf, ih, pow_succ]; omega

theorem sOf_getD (u : List F) (i : ℕ) (hi : i < 2 ^ u.length) :
    (sOf u).getD i 0 = ∏ b ∈ Finset.range u.length,
      if i.testBit b then u.reverse.getD b 1 else 1 := by
  induction u generalizing i with
  | nil => simp at hi; subst hi; simp [sOf]
  | cons u us ih =>
    have hl := sOf_length us
    rw [List.length_cons, Finset.prod_range_succ]
    have hr : ∀ b ∈ Finset.range us.length, (if i.testBit b then (u :: us).reverse.getD b 1 else 1)
        = if i.testBit b then us.reverse.getD b 1 else 1 := by
      intro b hb
      have hb := Finset.mem_range.1 hb
      simp only [List.reverse_cons, List.getD_eq_getElem?_getD]
      rw [List.getElem?_append_left (by simpa using hb)]
    rw [Finset.prod_congr rfl hr]
    have hlast : (u :: us).reverse.getD us.length 1 = u := by
      simp [List.getD_eq_getElem?_getD]
    rw [hlast]
    by_cases h : i < 2 ^ us.length
    · rw [Nat.testBit_lt_two_pow h]
      simp only [sOf, List.getD_eq_getElem?_getD]
      rw [List.getElem?_append_left (by omega), ← List.getD_eq_getElem?_getD, ih i h]
      simp
    · push Not at h
      rw [List.length_cons, pow_succ] at hi
      have h2 : i.testBit us.length = true := by
        rw [Nat.testBit_eq_decide_div_mod_eq]
        have : i / 2 ^ us.length = 1 := Nat.div_eq_of_lt_le (by omega) (by omega)
        simp [this]
      have h3 : ∀ b ∈ Finset.range us.length,
          (if i.testBit b then us.reverse.getD b 1 else 1)
          = if (i - 2 ^ us.length).testBit b then us.reverse.getD b 1 else 1 := by
        intro b hb
        have hb := Finset.mem_range.1 hb
        have : i = 2 ^ us.length + (i - 2 ^ us.length) := by omega
        conv_lhs => rw [this, Nat.testBit_two_pow_add_gt hb]
      rw [Finset.prod_congr rfl h3, ← ih _ (by omega), h2]
      simp only [sOf, List.getD_eq_getElem?_getD]
      rw [List.getElem?_append_right (by omega), hl, List.getElem?_map]
      have : i - 2 ^ us.length < (sOf us).length := by omega
      simp [List.getElem?_eq_getElem this]

theorem dot_sOf_cons (u : F) (us : List F) (g : List A) :
    dot (sOf (u :: us)) g = dot (sOf us) (g.take (2 ^ us.length))
      + u • dot (sOf us) (g.drop (2 ^ us.length)) := by
  have hl := sOf_length us
  have : ∀ (l l' : List F) (g : List A), dot (l ++ l') g
      = dot l (g.take l.length) + dot l' (g.drop l.length) := by
    intro l l' g
    induction l generalizing g with
    | nil => simp [dot]
    | cons a l ih =>
      cases g with
      | nil => simp [dot]
      | cons b g =>
        simp only [List.cons_append, dot_cons, List.length_cons, List.take_succ_cons,
          List.drop_succ_cons, ih g]
        abel
  rw [sOf, this, hl, dot_map_mul]

theorem dot_take (l : List F) (g : List A) : dot l (g.take l.length) = dot l g := by
  induction l generalizing g with
  | nil => simp [dot]
  | cons a l ih =>
    cases g with
    | nil => simp [dot]
    | cons b g => simp only [List.length_cons, List.take_succ_cons, dot_cons, ih]

theorem dot_collapse (c d : F) (pl ph : List F) (gl gh : List A) (h1 : ph.length = pl.length)
    (h2 : gl.length = pl.length) (h3 : gh.length = pl.length) :
    dot (List.zipWith (fun lo hi => lo + hi * c) pl ph)
      (List.zipWith (fun lo hi => lo + d • hi) gl gh)
      = dot pl gl + c • dot ph gl + d • dot pl gh + (c * d) • dot ph gh := by
  induction pl generalizing ph gl gh with
  | nil =>
    cases ph <;> cases gl <;> cases gh <;> simp_all [dot]
  | cons a pl ih =>
    cases ph with
    | nil => simp at h1
    | cons a' ph =>
    cases gl with
    | nil => simp at h2
    | cons b gl =>
    cases gh with
    | nil => simp at h3
    | cons b' gh =>
      simp only [List.zipWith_cons_cons, dot_cons]
      rw [ih ph gl gh (by simpa using h1) (by simpa using h2) (by simpa using h3)]
      module

theorem dot_zipWith_right (d : F) (s : List F) (gl gh : List A) (h2 : gl.length = s.length)
    (h3 : gh.length = s.length) :
    dot s (List.zipWith (fun lo hi => lo + d • hi) gl gh) = dot s gl + d • dot s gh := by
  induction s generalizing gl gh with
  | nil => simp [dot]
  | cons a s ih =>
    cases gl with
    | nil => simp at h2
    | cons b gl =>
    cases gh with
    | nil => simp at h3
    | cons b' gh =>
      simp only [List.zipWith_cons_cons, dot_cons]
      rw [ih gl gh (by simpa using h2) (by simpa using h3)]
      module

theorem dot_split (p : List F) (g : List A) (m : ℕ) (h : p.length = g.length) :
    dot p g = dot (p.take m) (g.take m) + dot (p.drop m) (g.drop m) := by
  conv_lhs => rw [← List.take_append_drop m p, ← List.take_append_drop m g]
  rw [dot_append]
  simp [h]

theorem multiexp_eq (l : List F) (g : List A) (h : l.length = g.length) :
    multiexp l g = some (dot l g) := by
  unfold multiexp
  rw [if_pos h]; rfl

theorem computeInnerProduct_dot (a b : List F) (h : a.length = b.length) :
    computeInnerProduct a b = some (dot a b) := by
  rw [computeInnerProduct_eq, if_pos h]; rfl

/-- `parallelize` only applies its closure to pieces in range. -/
theorem parallelize_congr {α : Type} (threads : ℕ) (v : List α) (f f' : List α → ℕ → List α)
    (h : ∀ piece start, start + piece.length ≤ v.length → f piece start = f' piece start) :
    parallelize threads v f = parallelize threads v f' := by
  unfold parallelize
  split
  · rfl
  · rename_i chunk _
    split_ifs with hc
    · rfl
    · congr 2
      apply List.map_congr_left
      rintro ⟨piece, i⟩ hm
      have h1 := (List.mem_zipIdx_iff_getElem? (l := chunks chunk v)).1 hm
      have h2 := parallelize_pieces hc v i piece h1
      apply h
      by_cases hi : i * chunk ≤ v.length
      · subst h2; simp; omega
      · exfalso
        have : piece ∈ chunks chunk v := List.mem_of_getElem? h1
        have h3 : piece = [] := by
          rw [h2, List.drop_of_length_le (by omega)]; simp
        exact (chunks_length_le hc v piece this).2 h3

theorem generatorCollapse_eq (threads : ℕ) (ht : threads ≠ 0) (g : List A) (u : F) (m : ℕ)
    (hg : g.length = 2 ^ (m + 1)) :
    ∃ g', generatorCollapse threads g u = some g' ∧
      g'.take (2 ^ m) = List.zipWith (fun lo hi => lo + u • hi) (g.take (2 ^ m)) (g.drop (2 ^ m)) := by
  have hpos : 0 < 2 ^ m := by positivity
  have hlen : g.length / 2 = 2 ^ m := by rw [hg, pow_succ]; omega
  have hle : 2 ^ (m + 1) = 2 ^ m + 2 ^ m := by rw [pow_succ]; omega
  unfold generatorCollapse
  simp only [hlen]
  have h1 := parallelize_eq_mapIdx threads (g.take (2 ^ m))
    (fun i x => x + u • (g.drop (2 ^ m)).getD i 0) (by
      intro h; have := congrArg List.length h; simp [hg] at this) ht
  -- each piece adds the matching slice of the upper half
  have h2 : parallelize threads (g.take (2 ^ m)) (fun gLo start =>
      List.zipWith (fun lo hi => lo + u • hi) gLo ((g.drop (2 ^ m)).drop start))
      = parallelize threads (g.take (2 ^ m)) fun piece start =>
          piece.mapIdx fun i x => x + u • (g.drop (2 ^ m)).getD (start + i) 0 := by
    apply parallelize_congr
    intro piece start hs
    simp only [List.length_take, hg] at hs
    apply List.ext_getElem
    · simp [hg]; omega
    · intro i h3 h4
      simp only [List.length_mapIdx] at h4
      simp only [List.getElem_mapIdx, List.getElem_zipWith, List.getElem_drop]
      rw [List.getD_eq_getElem _ _ (by simp [hg]; omega)]
      simp [List.getElem_drop, add_assoc]
  rw [h2, h1]
  refine ⟨_, rfl, ?_⟩
  rw [List.take_append_of_le_length (by simp [hg]; omega)]
  rw [List.take_of_length_le (by simp)]
  apply List.ext_getElem
  · simp [hg]; omega
  · intro i h3 h4
    simp only [List.length_mapIdx, List.length_take, hg] at h3
    simp only [List.getElem_mapIdx, List.getElem_zipWith]
    rw [List.getD_eq_getElem _ _ (by simp [hg]; omega)]

/-! ## The verifier's `compute_s` and `compute_b` -/

theorem computeS_fold (l : List F) (i : ℕ) (S Z : List F) (hS : S.length = 2 ^ i)
    (hZ : 2 ^ (i + l.length) - 2 ^ i ≤ Z.length) :
    (l.zipIdx i).foldl (fun (v : List F) p =>
      let len := 2 ^ p.2
      let left := v.take len
      left ++ left.map (· * p.1) ++ v.drop (2 * len)) (S ++ Z)
      = l.foldl (fun S u => S ++ S.map (· * u)) S ++ Z.drop (2 ^ (i + l.length) - 2 ^ i) := by
  induction l generalizing i S Z with
  | nil => simp
  | cons u l ih =>
    have h1 : 2 ^ i * 2 = 2 ^ (i + 1) := (pow_succ 2 i).symm
    have h2 : 2 ^ (i + 1) ≤ 2 ^ (i + (u :: l).length) :=
      Nat.pow_le_pow_right (by omega) (by simp)
    have h3 : i + (u :: l).length = i + 1 + l.length := by simp; omega
    have ih' := ih (i + 1) (S ++ S.map (· * u)) (Z.drop (2 ^ i)) (by simp [hS]; omega)
    rw [h3] at h2 hZ ⊢
    rw [List.zipIdx_cons, List.foldl_cons, List.foldl_cons]
    generalize 2 ^ (i + 1 + l.length) = N at *
    generalize 2 ^ (i + 1) = b at *
    generalize 2 ^ i = a at *
    have : ((S ++ Z).take (a) ++ ((S ++ Z).take (a)).map (· * u)
        ++ (S ++ Z).drop (2 * a)) = (S ++ S.map (· * u)) ++ Z.drop (a) := by
      rw [List.take_append_of_le_length (by omega), List.take_of_length_le (by omega),
        List.drop_append, List.drop_of_length_le (by omega)]
      rw [List.nil_append, hS, show 2 * a - a = a by omega]
    dsimp only
    rw [this, ih' (by rw [List.length_drop]; omega), List.drop_drop]
    congr 2
    omega

theorem foldl_ext (u : List F) (S : List F) :
    u.reverse.foldl (fun S u => S ++ S.map (· * u)) S
      = u.foldr (fun u S => S ++ S.map (· * u)) S := by
  rw [List.foldl_reverse]

theorem foldr_sOf (u : List F) (init : F) :
    u.foldr (fun u S => S ++ S.map (· * u)) [init] = (sOf u).map (init * ·) := by
  induction u with
  | nil => simp [sOf]
  | cons u us ih =>
    rw [List.foldr_cons, ih, sOf]
    simp [mul_assoc]

variable [DecidableEq F]

/-- `compute_s` panics exactly on an empty list of challenges and is otherwise `init · s`. -/
theorem computeS_eq (u : List F) (init : F) :
    computeS u init = if u = [] then none else some ((sOf u).map (init * ·)) := by
  unfold computeS
  split_ifs with h
  · rfl
  · have := computeS_fold u.reverse 0 [init] (List.replicate (2 ^ u.length - 1) 0) rfl (by simp)
    simp only [List.singleton_append] at this
    rw [this, foldl_ext, foldr_sOf]
    simp

theorem powersFrom_length (x : F) (m : ℕ) (c : F) : (powersFrom x m c).length = m := by
  induction m generalizing c with
  | zero => rfl
  | succ m ih => simp [powersFrom, ih]

theorem dot_powersFrom (l : List F) (x : F) (m : ℕ) (c : F) (h : l.length ≤ m) :
    dot l (powersFrom x m c) = c * evalPolynomial l x := by
  rw [evalPolynomial_eq]
  induction l generalizing m c with
  | nil => simp [dot]
  | cons a l ih =>
    obtain ⟨m, rfl⟩ : ∃ m', m = m' + 1 := ⟨m - 1, by simp at h; omega⟩
    rw [powersFrom, dot_cons, ih m (c * x) (by simpa using h)]
    simp
    ring

theorem computeB_eq (x : F) (u : List F) : computeB x u = evalPolynomial (sOf u) x := by
  have h : ∀ u : List F, u.reverse.foldl
      (fun (st : F × F) uj => (st.1 * (1 + uj * st.2), st.2 * st.2)) (1, x)
      = (evalPolynomial (sOf u) x, x ^ 2 ^ u.length) := by
    intro u
    induction u with
    | nil => simp [sOf, evalPolynomial]
    | cons u us ih =>
      rw [List.reverse_cons, List.foldl_append, ih]
      simp only [List.foldl_cons, List.foldl_nil, evalPolynomial_eq, sOf, toPoly_append,
        toPoly_map_mul, sOf_length, Prod.mk.injEq]
      constructor
      · simp; ring
      · rw [List.length_cons, pow_succ, mul_comm, ← pow_add]; congr 1; ring
  unfold computeB
  rw [h]

end Verif.Ipa
