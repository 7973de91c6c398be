import Verif.Value.Model
import Verif.Assigned.Props

/-!
# C21: `Value` never invents or loses a witness

Specification: a value is either known with a given content or unknown.  Each theorem says
which it is, for every operation.
-/

namespace Verif.Value

variable {V W A : Type*}

/-- Specification: the value is known and holds `x`. -/
def Holds (v : Value V) (x : V) : Prop := v = known x
/-- Specification: the value is unknown. -/
def Missing (v : Value V) : Prop := v = unknown

theorem holds_or_missing (v : Value V) : (∃ x, Holds v x) ∨ Missing v := by
  rcases v with ⟨_ | x⟩
  · exact .inr rfl
  · exact .inl ⟨x, rfl⟩

theorem not_both (v : Value V) (x : V) : ¬(Holds v x ∧ Missing v) := by
  rintro ⟨h, h'⟩
  have := h.symm.trans h'
  simp [known, unknown] at this

theorem assign_ok (v : Value V) (x : V) : assign v = .ok x ↔ Holds v x := by
  rcases v with ⟨_ | y⟩ <;> simp [assign, Holds, known]

theorem assign_err (v : Value V) : assign v = .error .synthesis ↔ Missing v := by
  rcases v with ⟨_ | y⟩ <;> simp [assign, Missing, unknown]

theorem map_holds (v : Value V) (f : V → W) (y : W) :
    Holds (map v f) y ↔ ∃ x, Holds v x ∧ f x = y := by
  rcases v with ⟨_ | x⟩ <;> simp [map, Holds, known]

theorem andThen_holds (v : Value V) (f : V → Value W) (y : W) :
    Holds (andThen v f) y ↔ ∃ x, Holds v x ∧ Holds (f x) y := by
  rcases v with ⟨_ | x⟩ <;> simp [andThen, Holds, known, unknown]

theorem zip_holds (v : Value V) (w : Value W) (p : V × W) :
    Holds (zip v w) p ↔ Holds v p.1 ∧ Holds w p.2 := by
  rcases v with ⟨_ | x⟩ <;> rcases w with ⟨_ | y⟩ <;> simp [zip, optZip, Holds, known, Prod.ext_iff]

theorem unzip_holds (v : Value (V × W)) (a : V) (b : W) :
    (Holds (unzip v).1 a ∧ Holds (unzip v).2 b) ↔ Holds v (a, b) := by
  rcases v with ⟨_ | ⟨x, y⟩⟩ <;> simp [unzip, Holds, known, unknown]

theorem unzip_missing (v : Value (V × W)) :
    Missing v ↔ Missing (unzip v).1 ∧ Missing (unzip v).2 := by
  rcases v with ⟨_ | ⟨x, y⟩⟩ <;> simp [unzip, Missing, known, unknown]

theorem transposeArray_holds {LEN : ℕ} (v : Value (Fin LEN → V)) (arr : Fin LEN → V)
    (h : Holds v arr) : ∀ i, Holds (transposeArray v i) (arr i) := by
  subst h; intro i; rfl

theorem transposeArray_missing {LEN : ℕ} (v : Value (Fin LEN → V)) (h : Missing v) :
    ∀ i, Missing (transposeArray v i) := by
  subst h; intro i; rfl

/-- `transpose_vec` panics exactly when the contents are known and have another length. -/
theorem transposeVec_panics (v : Value (List V)) (n : ℕ) :
    transposeVec v n = none ↔ ∃ vs, Holds v vs ∧ vs.length ≠ n := by
  rcases v with ⟨_ | vs⟩
  · simp [transposeVec, Holds, known]
  · simp [transposeVec, Holds, known]

/-- Otherwise it has the requested length and its entries are known exactly when the
contents are. -/
theorem transposeVec_spec (v : Value (List V)) (n : ℕ) (out : List (Value V))
    (h : transposeVec v n = some out) :
    out.length = n ∧
    (∀ vs, Holds v vs → out = vs.map known) ∧
    (Missing v → ∀ o ∈ out, Missing o) := by
  rcases v with ⟨_ | vs⟩
  · simp only [transposeVec, Option.some.injEq] at h
    subst h
    refine ⟨by simp, ?_, ?_⟩
    · intro vs hv; simp [Holds, known] at hv
    · intro _ o ho
      simp only [List.mem_map] at ho
      obtain ⟨_, _, rfl⟩ := ho
      rfl
  · by_cases hl : vs.length = n
    · simp only [transposeVec, hl, if_true, Option.some.injEq] at h
      subst h
      refine ⟨by simpa using hl, ?_, ?_⟩
      · intro ws hv
        simp only [Holds, known, Value.mk.injEq, Option.some.injEq] at hv
        rw [hv]
      · intro hm; simp [Missing, unknown] at hm
    · simp [transposeVec, hl] at h

/-- Collection is known exactly when every element is, in order. -/
theorem collect_holds (vs : List (Value A)) (xs : List A) :
    Holds (collect vs) xs ↔ List.Forall₂ Holds vs xs := by
  induction vs generalizing xs with
  | nil =>
    simp only [collect, Holds, known, Value.mk.injEq, Option.some.injEq, List.forall₂_nil_left_iff]
    exact eq_comm
  | cons v vs ih =>
    rcases v with ⟨_ | a⟩
    · simp only [collect]
      constructor
      · intro h; simp [Holds, known, unknown] at h
      · intro h; cases h with | cons h _ => simp [Holds, known] at h
    · simp only [collect]
      rw [map_holds]
      constructor
      · rintro ⟨ys, h, rfl⟩
        exact .cons rfl ((ih ys).1 h)
      · intro h
        cases h with
        | cons h1 h2 =>
          rename_i b l
          have : a = b := by simpa [Holds, known] using h1
          subst this
          exact ⟨_, (ih l).2 h2, rfl⟩

theorem neg_holds [Neg V] (v : Value V) (y : V) :
    Holds (neg v) y ↔ ∃ x, Holds v x ∧ -x = y := map_holds v _ y

theorem add_holds [Add V] (v w : Value V) (z : V) :
    Holds (add v w) z ↔ ∃ x y, Holds v x ∧ Holds w y ∧ x + y = z := by
  rcases v with ⟨_ | x⟩ <;> rcases w with ⟨_ | y⟩ <;> simp [add, optZip, Holds, known]

theorem sub_holds [Sub V] (v w : Value V) (z : V) :
    Holds (sub v w) z ↔ ∃ x y, Holds v x ∧ Holds w y ∧ x - y = z := by
  rcases v with ⟨_ | x⟩ <;> rcases w with ⟨_ | y⟩ <;> simp [sub, optZip, Holds, known]

theorem mul_holds [Mul V] (v w : Value V) (z : V) :
    Holds (mul v w) z ↔ ∃ x y, Holds v x ∧ Holds w y ∧ x * y = z := by
  rcases v with ⟨_ | x⟩ <;> rcases w with ⟨_ | y⟩ <;> simp [mul, optZip, Holds, known]

/-- The checks on contents never act on an unknown value and act as stated on a known one. -/
theorem assertIfKnown_panics (v : Value V) (f : V → Bool) :
    assertIfKnown v f = none ↔ ∃ x, Holds v x ∧ f x = false := by
  rcases v with ⟨_ | x⟩ <;> simp [assertIfKnown, Holds, known]

theorem errorIfKnownAnd_err (v : Value V) (f : V → Bool) :
    errorIfKnownAnd v f = .error .synthesis ↔ ∃ x, Holds v x ∧ f x = true := by
  rcases v with ⟨_ | x⟩
  · simp [errorIfKnownAnd, Holds, known]
  · simp only [errorIfKnownAnd, Holds, known, Value.mk.injEq, Option.some.injEq, exists_eq_left']
    split_ifs with h <;> simp [h]

section AssignedOps
variable {F : Type*} [Field F] [DecidableEq F]
open Verif.Assigned (Assigned)

/-- Arithmetic on values holding deferred inversions, evaluated, is field arithmetic on the
evaluated operands. -/
theorem evaluate_addA (v : Value (Assigned F)) (w : Value F) :
    evaluate (addA v w) = add (evaluate v) w := by
  rcases v with ⟨_ | x⟩ <;> rcases w with ⟨_ | y⟩ <;>
    simp [evaluate, addA, add, optZip, map, Verif.Assigned.evaluate_addF]

theorem evaluate_subA (v : Value (Assigned F)) (w : Value F) :
    evaluate (subA v w) = sub (evaluate v) w := by
  rcases v with ⟨_ | x⟩ <;> rcases w with ⟨_ | y⟩ <;>
    simp [evaluate, subA, sub, optZip, map, Verif.Assigned.evaluate_subF]

theorem evaluate_mulA (v : Value (Assigned F)) (w : Value F) :
    evaluate (mulA v w) = mul (evaluate v) w := by
  rcases v with ⟨_ | x⟩ <;> rcases w with ⟨_ | y⟩ <;>
    simp [evaluate, mulA, mul, optZip, map, Verif.Assigned.evaluate_mulF]

theorem evaluate_intoField (v : Value F) : evaluate (intoField v) = v := by
  rcases v with ⟨_ | x⟩ <;> simp [evaluate, intoField, map, Assigned.evaluate]

theorem evaluate_cubeA (v : Value (Assigned F)) :
    evaluate (cubeA v) = map (evaluate v) (fun x => x ^ 3) := by
  rcases v with ⟨_ | x⟩ <;> simp [evaluate, cubeA, map, Verif.Assigned.evaluate_cube]

theorem evaluate_invertA (v : Value (Assigned F)) :
    evaluate (invertA v) = map (evaluate v) (fun x => x⁻¹) := by
  rcases v with ⟨_ | x⟩
  · rfl
  · have h := Verif.Assigned.evaluate_invert x
    simp only [evaluate, invertA, map, Option.map_some, Value.mk.injEq, Option.some.injEq]
    by_cases h0 : x.evaluate = 0
    · rw [h.1 h0, h0, inv_zero]
    · exact eq_inv_of_mul_eq_one_left (h.2 h0)

end AssignedOps

example : Holds (add (known (2 : ℤ)) (known 3)) 5 ∧ Missing (add (known (2 : ℤ)) unknown) ∧
    Holds (collect [known (1 : ℤ), known 2]) [1, 2] ∧
    Missing (collect [known (1 : ℤ), unknown]) ∧
    transposeVec (known [1, 2]) 3 = none := by
  refine ⟨?_, rfl, ?_, rfl, rfl⟩
  · rw [add_holds]; exact ⟨2, 3, rfl, rfl, rfl⟩
  · rw [collect_holds]; exact .cons rfl (.cons rfl .nil)

end Verif.Value
