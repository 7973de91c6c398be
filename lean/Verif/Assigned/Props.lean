import Verif.Assigned.Model

/-!
# C01, C02: deferred inversion

Specification: the meaning of an `Assigned` value is the field element `sem`, where a
rational with zero denominator means zero.
-/

namespace Verif.Assigned

variable {F : Type*} [Field F] [DecidableEq F]

/-- Specification: the field element denoted by an assigned value; `n/0` denotes `0`. -/
def sem : Assigned F → F
  | .zero => 0
  | .trivial x => x
  | .rational n d => if d = 0 then 0 else n / d

theorem invOr0_eq (d : F) : Assigned.invOr0 d = d⁻¹ := by
  unfold Assigned.invOr0
  split_ifs with h
  · simp [h]
  · rfl

/-- C01: `evaluate` returns the denoted element. -/
theorem evaluate_eq (a : Assigned F) : a.evaluate = sem a := by
  cases a with
  | zero => rfl
  | trivial x => rfl
  | rational n d =>
    simp only [Assigned.evaluate, sem, invOr0_eq]
    split_ifs with h1 h0 <;> simp_all [div_eq_mul_inv]

/-- C01: negation. -/
theorem evaluate_neg (a : Assigned F) : a.neg.evaluate = -a.evaluate := by
  simp only [evaluate_eq]
  cases a <;> simp [Assigned.neg, sem]
  split_ifs <;> simp [neg_div]

/-- C01: addition. -/
theorem evaluate_add (a b : Assigned F) : (a.add b).evaluate = a.evaluate + b.evaluate := by
  simp only [evaluate_eq]
  cases a <;> cases b <;> simp [Assigned.add, sem]
  · rename_i o n d
    by_cases hd : d = 0
    · simp [hd, sem]
    · simp [hd, sem]; field_simp; ring
  · rename_i n d o
    by_cases hd : d = 0
    · simp [hd, sem]
    · simp [hd, sem]; field_simp
  · rename_i ln ld rn rd
    by_cases h1 : ld = 0
    · simp [h1, sem]
    · by_cases h2 : rd = 0
      · simp [h1, h2, sem]
      · simp [h1, h2, sem]; field_simp

/-- C01: subtraction. -/
theorem evaluate_sub (a b : Assigned F) : (a.sub b).evaluate = a.evaluate - b.evaluate := by
  simp [Assigned.sub, evaluate_add, evaluate_neg, sub_eq_add_neg]

/-- C01: adding and subtracting a field element. -/
theorem evaluate_addF (a : Assigned F) (b : F) : (a.addF b).evaluate = a.evaluate + b := by
  simp only [Assigned.addF, evaluate_add]; rfl

theorem evaluate_subF (a : Assigned F) (b : F) : (a.subF b).evaluate = a.evaluate - b := by
  simp [Assigned.subF, evaluate_addF, sub_eq_add_neg]

/-- C01: multiplication. -/
theorem evaluate_mul (a b : Assigned F) : (a.mul b).evaluate = a.evaluate * b.evaluate := by
  simp only [evaluate_eq]
  cases a <;> cases b <;> simp [Assigned.mul, sem]
  · rename_i o n d
    by_cases hd : d = 0
    · simp [hd]
    · simp [hd]; field_simp
  · rename_i n d o
    by_cases hd : d = 0
    · simp [hd]
    · simp [hd]; field_simp
  · rename_i ln ld rn rd
    by_cases h1 : ld = 0
    · simp [h1]
    · by_cases h2 : rd = 0
      · simp [h2]
      · simp [h1, h2]; field_simp

theorem evaluate_mulF (a : Assigned F) (b : F) : (a.mulF b).evaluate = a.evaluate * b := by
  simp only [Assigned.mulF, evaluate_mul]; rfl

/-- C01: doubling, squaring, cubing. -/
theorem evaluate_double (a : Assigned F) : a.double.evaluate = a.evaluate + a.evaluate := by
  simp only [evaluate_eq]
  cases a <;> simp [Assigned.double, sem]
  split_ifs <;> simp [add_div]

theorem evaluate_square (a : Assigned F) : a.square.evaluate = a.evaluate ^ 2 := by
  simp only [evaluate_eq]
  cases a <;> simp [Assigned.square, sem, sq]
  split_ifs
  · simp
  · field_simp

theorem evaluate_cube (a : Assigned F) : a.cube.evaluate = a.evaluate ^ 3 := by
  simp only [Assigned.cube, evaluate_mul, evaluate_square]; ring

/-- C01: inversion, with the inverse of zero taken to be zero.  The statement spells both
cases out: the product with the original is one unless the original denotes zero. -/
theorem evaluate_invert (a : Assigned F) :
    (a.evaluate = 0 → a.invert.evaluate = 0) ∧
    (a.evaluate ≠ 0 → a.invert.evaluate * a.evaluate = 1) := by
  simp only [evaluate_eq]
  cases a with
  | zero => simp [Assigned.invert, sem]
  | trivial x =>
    constructor
    · intro h; simp_all [Assigned.invert, sem]
    · intro h
      have hx : x ≠ 0 := h
      simp [Assigned.invert, sem, hx]
  | rational n d =>
    by_cases hn : n = 0 <;> by_cases hd : d = 0 <;> simp_all [Assigned.invert, sem]

/-- C01: zero test. -/
theorem isZeroVartime_iff (a : Assigned F) : a.isZeroVartime = true ↔ a.evaluate = 0 := by
  simp only [evaluate_eq]
  cases a with
  | zero => simp [Assigned.isZeroVartime, sem]
  | trivial x => simp [Assigned.isZeroVartime, sem]
  | rational n d =>
    by_cases hn : n = 0 <;> by_cases hd : d = 0 <;> simp_all [Assigned.isZeroVartime, sem]

/-- C01: `==` is equality of the denoted elements. -/
theorem beq_iff (a b : Assigned F) : a.beq b = true ↔ a.evaluate = b.evaluate := by
  have key : ∀ x : Assigned F, x.isZeroVartime = true ↔ sem x = 0 := by
    intro x; rw [isZeroVartime_iff, evaluate_eq]
  simp only [evaluate_eq]
  rcases a with _ | x | ⟨ln, ld⟩ <;> rcases b with _ | y | ⟨rn, rd⟩
  · simp [Assigned.beq]
  · simp only [Assigned.beq, key]; exact eq_comm
  · simp only [Assigned.beq, key]; exact eq_comm
  · simp only [Assigned.beq, key]; rfl
  · simp [Assigned.beq, sem]
  · by_cases hd : rd = 0
    · simp only [Assigned.beq, hd, if_true, key]
      simp [sem]
    · simp [Assigned.beq, hd, sem, eq_div_iff hd]
  · simp only [Assigned.beq, key]; rfl
  · by_cases hd : ld = 0
    · simp only [Assigned.beq, hd, if_true, key]
      simp only [sem, if_true]
      exact eq_comm
    · simp only [Assigned.beq, hd, if_false, sem, div_eq_iff hd, decide_eq_true_eq]
      exact eq_comm
  · by_cases h1 : ld = 0
    · simp only [Assigned.beq, h1, if_true, key]
      simp only [sem, if_true]
      exact eq_comm
    · by_cases h2 : rd = 0
      · simp only [Assigned.beq, h1, h2, if_true, if_false, key]
        simp [sem]
      · simp [Assigned.beq, h1, h2, sem, div_eq_div_iff h1 h2, mul_comm rn]

/-- Two rationals that differ as stored but are equal; a zero-denominator rational equal to
zero: the equality statement is not about syntactic equality. -/
example : (Assigned.rational (1 : ℚ) 2).beq (.rational 2 4) = true ∧
    (Assigned.rational (3 : ℚ) 0).beq (.trivial 0) = true ∧
    (Assigned.rational (3 : ℚ) 0).invert.evaluate = 0 ∧
    (Assigned.rational (3 : ℚ) 2).invert.evaluate = 2 / 3 := by
  refine ⟨?_, ?_, ?_, ?_⟩
  · rw [beq_iff]; norm_num [evaluate_eq, sem]
  · rw [beq_iff]; simp [evaluate_eq, sem]
  · simp [evaluate_eq, sem, Assigned.invert]
  · norm_num [evaluate_eq, sem, Assigned.invert]

/-! ## Batch inversion -/

theorem prefixProducts_length (l : List F) (acc : F) :
    (prefixProducts acc l).1.length = l.length := by
  induction l generalizing acc with
  | nil => rfl
  | cons p ps ih => simp [prefixProducts, ih]

theorem prefixProducts_ne_zero (l : List F) (acc : F) (h : acc ≠ 0) :
    (prefixProducts acc l).2 ≠ 0 := by
  induction l generalizing acc with
  | nil => exact h
  | cons p ps ih =>
    simp only [prefixProducts]
    apply ih
    split_ifs with hp
    · exact h
    · exact mul_ne_zero h hp

theorem backward_append (acc : F) (l₁ l₂ : List (F × F)) :
    ∃ acc', backward acc (l₁ ++ l₂) = backward acc l₁ ++ backward acc' l₂ := by
  induction l₁ generalizing acc with
  | nil => exact ⟨acc, rfl⟩
  | cons x xs ih =>
    obtain ⟨p, tmp⟩ := x
    by_cases hp : p = 0
    · obtain ⟨a, ha⟩ := ih acc
      exact ⟨a, by simp [backward, hp, ha]⟩
    · obtain ⟨a, ha⟩ := ih (acc * p)
      exact ⟨a, by simp [backward, hp, ha]⟩

theorem backward_spec (l : List F) : ∀ (acc : F), acc ≠ 0 → ∀ tail : List (F × F),
    backward (prefixProducts acc l).2⁻¹ ((l.zip (prefixProducts acc l).1).reverse ++ tail)
      = (l.map fun p => p⁻¹).reverse ++ backward acc⁻¹ tail := by
  induction l with
  | nil => intro acc _ tail; simp [prefixProducts]
  | cons p ps ih =>
    intro acc hacc tail
    simp only [prefixProducts, List.zip_cons_cons, List.reverse_cons, List.append_assoc,
      List.map_cons]
    by_cases hp : p = 0
    · simp only [hp, if_true]
      rw [ih acc hacc]
      simp [backward]
    · simp only [hp, if_false]
      rw [ih (acc * p) (mul_ne_zero hacc hp)]
      simp only [List.cons_append, List.nil_append, backward, hp, if_false]
      congr 2
      · field_simp
      · congr 1; field_simp

/-- The Montgomery-trick batch inversion never panics and inverts each element, leaving
zeros. -/
theorem batchInvert_eq (l : List F) : batchInvert l = some (l.map fun p => p⁻¹) := by
  have h := prefixProducts_ne_zero l (1 : F) one_ne_zero
  have hb := backward_spec l 1 one_ne_zero []
  simp only [List.append_nil, backward] at hb
  simp [batchInvert, h, hb]

theorem writeBack_map (ds : List (Option F)) :
    writeBack ds ((ds.filterMap id).map fun p => p⁻¹) = some (ds.map (Option.map fun p => p⁻¹)) := by
  induction ds with
  | nil => rfl
  | cons d ds ih =>
    have ih2 : writeBack ds (List.map (fun p => p⁻¹) (List.filterMap (fun x => x) ds))
        = some (ds.map (Option.map fun p => p⁻¹)) := ih
    cases d <;> simp [writeBack, ih2]

theorem unflatten_flatten {α β : Type*} (g : List β → List α)
    (hg : ∀ l, (g l).length = l.length) (ls : List (List β)) :
    unflatten (ls.map List.length) ((ls.map g).flatten) = ls.map g := by
  induction ls with
  | nil => rfl
  | cons l ls ih => simp [unflatten, hg, ih]

theorem polyInvert_eq (f : List (Assigned F)) :
    polyInvert f ((f.map fun a => (a.denominator).map fun p => p⁻¹).map fun d => d.getD 1)
      = some (f.map sem) := by
  simp only [polyInvert, List.length_map, if_true, Option.some.injEq]
  induction f with
  | nil => rfl
  | cons a f ih =>
    simp only [List.map_cons, List.zip_cons_cons, List.map_map] at ih ⊢
    rw [ih]
    congr 1
    cases a with
    | zero => simp [Assigned.numerator, Assigned.denominator, sem]
    | trivial x => simp [Assigned.numerator, Assigned.denominator, sem]
    | rational n d =>
      simp only [Assigned.numerator, Assigned.denominator, sem]
      by_cases hd : d = 0
      · simp [hd]
      · simp [hd, div_eq_mul_inv]

/-- C02: whatever the columns, batch inversion succeeds and returns, cell by cell, the denoted
field elements. -/
theorem batchInvertAssigned_eq (cols : List (List (Assigned F))) :
    batchInvertAssigned cols = some (cols.map fun c => c.map fun a => a.evaluate) := by
  have hfl : ((cols.map fun f => f.map Assigned.denominator).flatten).map
      (Option.map fun p => p⁻¹)
      = (cols.map fun f => f.map fun a => (a.denominator).map fun p => p⁻¹).flatten := by
    rw [List.map_flatten, List.map_map]
    congr 1
    apply List.map_congr_left
    intro f _
    simp
  have hunf := unflatten_flatten
    (g := fun f : List (Assigned F) => f.map fun a => (a.denominator).map fun p => p⁻¹)
    (fun l => by simp) cols
  have hlen : (cols.map fun f => f.map Assigned.denominator).map List.length
      = cols.map List.length := by simp [Function.comp_def]
  simp only [batchInvertAssigned, batchInvert_eq, writeBack_map, Option.bind_eq_bind,
    Option.bind_some, hlen, hfl, hunf]
  have hs : (fun a : Assigned F => a.evaluate) = sem := by funext a; exact evaluate_eq a
  rw [hs]
  clear hfl hunf hlen
  induction cols with
  | nil => rfl
  | cons c cols ih =>
    simp only [List.map_cons, List.zip_cons_cons, List.mapM_cons, polyInvert_eq, ih]
    rfl

/-- A non-trivial instance: two columns mixing all kinds of cells, one with a zero
denominator. -/
example : batchInvertAssigned
    [[Assigned.zero, .rational (1 : ℚ) 2], [.rational 5 0, .trivial 7, .rational 3 1]]
      = some [[0, 1 / 2], [0, 7, 3]] := by
  rw [batchInvertAssigned_eq]
  norm_num [evaluate_eq, sem]

end Verif.Assigned
