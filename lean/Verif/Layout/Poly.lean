import Verif.EccApi.Model
import Verif.Layout.Model
import Verif.Pow5.Model

/-!
# The gates of the gadgets are polynomials

The gadgets' gates are functions of the queried cells.  `Poly` says that such a function is made of
queries and constants by ring operations, as every `Expression` is; the gates of the gadgets are.
-/

namespace Verif.Layout

open Verif.Region (Gates LookupArg)

variable {C S F : Type} [Field F]

/-- Functions of the queried cells made from the queries that `Q` allows, of a degree at most the
number. -/
inductive Poly (Q : C → ℤ → Prop) : ℕ → ((C → ℤ → F) → F) → Prop
  | const (v : F) : Poly Q 0 fun _ => v
  | query {c rot} : Q c rot → Poly Q 1 fun q => q c rot
  | neg {d f} : Poly Q d f → Poly Q d fun q => -f q
  | add {d e f g} : Poly Q d f → Poly Q e g → Poly Q (max d e) fun q => f q + g q
  | sub {d e f g} : Poly Q d f → Poly Q e g → Poly Q (max d e) fun q => f q - g q
  | mul {d e f g} : Poly Q d f → Poly Q e g → Poly Q (d + e) fun q => f q * g q
  | mono {d e f} : d ≤ e → Poly Q d f → Poly Q e f

/-- A non-empty list of such functions. -/
def Polys (Q : C → ℤ → Prop) (D : ℕ) (f : (C → ℤ → F) → List F) : Prop :=
  ∃ l : List ((C → ℤ → F) → F), l ≠ [] ∧ (∀ g ∈ l, Poly Q D g) ∧ f = fun q => l.map fun g => g q

variable {Q : C → ℤ → Prop} {d e k D : ℕ}

theorem Polys.one {f : (C → ℤ → F) → F} (h : Poly Q d f) (hd : d ≤ D) :
    Polys Q D fun q => [f q] :=
  ⟨[f], by simp, by simpa using h.mono hd, rfl⟩

theorem Polys.cons {f : (C → ℤ → F) → F} {g : (C → ℤ → F) → List F} (h : Poly Q d f) (hd : d ≤ D)
    (hg : Polys Q D g) : Polys Q D fun q => f q :: g q := by
  obtain ⟨l, h1, h2, rfl⟩ := hg
  exact ⟨f :: l, by simp, by simpa using ⟨h.mono hd, h2⟩, rfl⟩

theorem Polys.append {f g : (C → ℤ → F) → List F} (hf : Polys Q D f)
    (hg : Polys Q D g) : Polys Q D fun q => f q ++ g q := by
  obtain ⟨l, h1, h2, rfl⟩ := hf
  obtain ⟨m, h3, h4, rfl⟩ := hg
  refine ⟨l ++ m, by simp [h1], ?_, by simp⟩
  intro g hg
  rcases List.mem_append.1 hg with h | h
  · exact h2 g h
  · exact h4 g h

theorem Poly.pow {f : (C → ℤ → F) → F} (h : Poly Q d f) :
    ∀ n : ℕ, Poly Q (n * d) fun q => f q ^ n
  | 0 => by simpa using Poly.const (1 : F)
  | n + 1 => by simpa only [pow_succ, Nat.succ_mul] using Poly.mul (h.pow n) h

theorem Poly.foldl {α : Type} (op : α → (C → ℤ → F) → F → F) (e : ℕ)
    (hop : ∀ a d f, Poly Q d f → Poly Q (d + e) fun q => op a q (f q)) :
    ∀ (l : List α) (d : ℕ) (f : (C → ℤ → F) → F), Poly Q d f →
      Poly Q (d + l.length * e) fun q => l.foldl (fun acc a => op a q acc) (f q)
  | [], d, _, h => h.mono (by simp)
  | a :: l, d, f, h => (Poly.foldl op e hop l (d + e) (fun q => op a q (f q)) (hop a d f h)).mono
      (by rw [List.length_cons, Nat.succ_mul]; omega)

theorem Poly.foldl_add {α : Type} (op : α → (C → ℤ → F) → F → F)
    (hop : ∀ a f, Poly Q d f → Poly Q d fun q => op a q (f q)) :
    ∀ (l : List α) (f : (C → ℤ → F) → F), Poly Q d f →
      Poly Q d fun q => l.foldl (fun acc a => op a q acc) (f q)
  | [], _, h => h
  | a :: l, f, h => Poly.foldl_add op hop l (fun q => op a q (f q)) (hop a f h)

theorem Poly.rangeCheck {f : (C → ℤ → F) → F} (h : Poly Q d f) (n : ℕ) :
    Poly Q (n * d + d) fun q => Utilities.rangeCheck (f q) n := by
  unfold Utilities.rangeCheck
  refine (Poly.foldl (fun (i : ℕ) q acc => acc * ((i : F) - f q)) d
    (fun a d' g hg => hg.mul (((Poly.const _).sub h).mono (by simp))) _ _ _ h).mono ?_
  have : ((List.range n).drop 1).length * d ≤ n * d := Nat.mul_le_mul_right _ (by simp)
  simp only [List.length_drop, List.length_range, List.length_range'] at this ⊢
  omega

theorem Poly.boolCheck {f : (C → ℤ → F) → F} (h : Poly Q d f) :
    Poly Q (2 * d + d) fun q => Utilities.boolCheck (f q) := h.rangeCheck 2

theorem Poly.ternary {f g h : (C → ℤ → F) → F} (hf : Poly Q d f) (hg : Poly Q e g) (hk : Poly Q k h) :
    Poly Q (max (d + e) (max 0 d + k)) fun q => Utilities.ternary (f q) (g q) (h q) :=
  (hf.mul hg).add (((Poly.const 1).sub hf).mul hk)

/-- Take a function apart. -/
macro "poly" : tactic => `(tactic| (repeat' first
  | with_reducible exact Poly.const _
  | with_reducible apply Poly.query
  | with_reducible apply Polys.one
  | with_reducible apply Polys.cons
  | with_reducible apply Polys.append
  | with_reducible apply Poly.boolCheck
  | with_reducible apply Poly.rangeCheck
  | with_reducible apply Poly.ternary
  | with_reducible apply Poly.pow
  | with_reducible apply Poly.neg
  | with_reducible_and_instances apply Poly.add
  | with_reducible_and_instances apply Poly.sub
  | with_reducible_and_instances apply Poly.mul) <;> try decide)

/-! ### The elliptic curve chip -/

section Ecc

open Verif.Ecc Verif.MulFixed Verif.EccApi

variable {p : ℕ} [Fact p.Prime]

theorem coordsCheck_poly (b : F) {cfg : MulFixed.Config C S} {w : (C → ℤ → F) → F} (hw : Poly Q 1 w)
    (h1 : Q cfg.add.yP 0) (h2 : Q cfg.add.xP 0) (h3 : Q cfg.fixedZ 0) (h4 : Q cfg.u 0)
    (h5 : ∀ i, Q (cfg.lagrangeCoeffs i) 0) : Polys Q 20 fun q => coordsCheck b cfg q (w q) := by
  unfold coordsCheck
  have hp : ∀ n : ℕ, Poly Q n fun q => (List.range n).foldl (fun acc _ => acc * w q) 1 := fun n =>
    (Poly.foldl (fun _ q acc => acc * w q) 1 (fun a d f hf => hf.mul hw) _ _ _ (.const 1)).mono
      (by simp)
  have hi : Poly Q 8 fun q => (List.finRange 8).foldl (fun acc (i : Fin 8) => acc +
      (List.range i.val).foldl (fun acc _ => acc * w q) 1 * q (cfg.lagrangeCoeffs i) 0) 0 :=
    Poly.foldl_add (fun (i : Fin 8) q acc => acc +
      (List.range i.val).foldl (fun acc _ => acc * w q) 1 * q (cfg.lagrangeCoeffs i) 0)
      (fun a f hf => (hf.add ((hp _).mul (.query (h5 a)))).mono (by have := a.isLt; omega)) _ _
      ((Poly.const 0).mono (by omega))
  refine Polys.cons (hi.sub (.query h2)) (by decide) ?_
  poly
  all_goals assumption

/-- Columns `Q` allows at the rotations -1, 0 and 1. -/
def Near (Q : C → ℤ → Prop) (c : C) : Prop := Q c 0 ∧ Q c 1 ∧ Q c (-1)

theorem witnessPoint_poly (b : F) {cfg : WitnessPoint.Config C S} (h1 : Near Q cfg.x)
    (h2 : Near Q cfg.y) : ∀ g ∈ WitnessPoint.gates b cfg, Polys Q 20 g.2 := by
  simp only [WitnessPoint.gates, WitnessPoint.curveEqn, List.forall_mem_cons, List.not_mem_nil,
    false_implies, implies_true, and_true]
  refine ⟨?_, ?_⟩ <;> poly
  all_goals simp only [Near] at * <;> simp only [*]

theorem addIncomplete_poly {cfg : AddIncomplete.Config C S} (h1 : Near Q cfg.xP)
    (h2 : Near Q cfg.yP) (h3 : Near Q cfg.xQR) (h4 : Near Q cfg.yQR) :
    ∀ g ∈ AddIncomplete.gates (F := F) cfg, Polys Q 20 g.2 := by
  simp only [AddIncomplete.gates, AddIncomplete.polys, List.forall_mem_cons, List.not_mem_nil,
    false_implies, implies_true, and_true]
  poly
  all_goals simp only [Near] at * <;> simp only [*]

theorem add_poly {cfg : Add.Config C S} (h1 : Near Q cfg.xP)
    (h2 : Near Q cfg.yP) (h3 : Near Q cfg.xQR) (h4 : Near Q cfg.yQR) (h5 : Near Q cfg.lambda)
    (h6 : Near Q cfg.alpha) (h7 : Near Q cfg.beta) (h8 : Near Q cfg.gamma) (h9 : Near Q cfg.delta) :
    ∀ g ∈ Add.gates (F := F) cfg, Polys Q 20 g.2 := by
  simp only [Add.gates, Add.polys, List.forall_mem_cons, List.not_mem_nil,
    false_implies, implies_true, and_true]
  poly
  all_goals simp only [Near] at * <;> simp only [*]

theorem incomplete_poly {cfg : Mul.Incomplete.Config C S} (h1 : Near Q cfg.z) (h2 : Near Q cfg.da.xA)
    (h3 : Near Q cfg.da.xP) (h4 : Near Q cfg.da.lambda1) (h5 : Near Q cfg.da.lambda2)
    (h6 : Near Q cfg.yP) : ∀ g ∈ Mul.Incomplete.gates (F := F) cfg, Polys Q 20 g.2 := by
  simp only [Mul.Incomplete.gates, Mul.Incomplete.forLoop, Mul.Incomplete.yA, Mul.DoubleAndAdd.YA,
    Mul.DoubleAndAdd.xR, List.forall_mem_cons, List.not_mem_nil,
    false_implies, implies_true, and_true]
  refine ⟨?_, ?_, ?_⟩ <;> poly
  all_goals simp only [Near] at * <;> simp only [*]

theorem complete_poly {cfg : Mul.Complete.Config C S} (h1 : Near Q cfg.zComplete)
    (h2 : Near Q cfg.add.yP) : ∀ g ∈ Mul.Complete.gates (F := F) cfg, Polys Q 20 g.2 := by
  simp only [Mul.Complete.gates, List.forall_mem_cons, List.not_mem_nil,
    false_implies, implies_true, and_true]
  poly
  all_goals simp only [Near] at * <;> simp only [*]

theorem overflow_poly {cfg : Mul.Overflow.Config C S} (h1 : Near Q cfg.a0)
    (h2 : Near Q cfg.a1) (h3 : Near Q cfg.a2) :
    ∀ g ∈ Mul.Overflow.gates (F := F) cfg, Polys Q 20 g.2 := by
  simp only [Mul.Overflow.gates, List.forall_mem_cons, List.not_mem_nil,
    false_implies, implies_true, and_true]
  poly
  all_goals simp only [Near] at * <;> simp only [*]

theorem lsb_poly {cfg : Mul.Config C S} (h1 : Near Q cfg.complete.zComplete)
    (h2 : Near Q cfg.add.xP) (h3 : Near Q cfg.add.yP) :
    ∀ g ∈ Mul.lsbGates (F := F) cfg, Polys Q 20 g.2 := by
  simp only [Mul.lsbGates, List.forall_mem_cons, List.not_mem_nil,
    false_implies, implies_true, and_true]
  poly
  all_goals simp only [Near] at * <;> simp only [*]

theorem lookupRange_poly (K : ℕ) {cfg : LookupRange.Config C S} (h : Near Q cfg.runningSum) :
    ∀ g ∈ LookupRange.gates (F := F) K cfg, Polys Q 20 g.2 := by
  simp only [LookupRange.gates, List.forall_mem_cons, List.not_mem_nil,
    false_implies, implies_true, and_true]
  poly
  all_goals simp only [Near] at * <;> simp only [*]

theorem super_poly (b : F) {cfg : MulFixed.Config C S} (h1 : Near Q cfg.window) (h2 : Near Q cfg.u)
    (h3 : ∀ i, Q (cfg.lagrangeCoeffs i) 0) (h4 : Q cfg.fixedZ 0) (h5 : Near Q cfg.runningSum.z)
    (h6 : Near Q cfg.add.xP) (h7 : Near Q cfg.add.yP)
    (ha : ∀ g ∈ Add.gates (F := F) cfg.add, Polys Q 20 g.2)
    (hi : ∀ g ∈ AddIncomplete.gates (F := F) cfg.addIncomplete, Polys Q 20 g.2) :
    ∀ g ∈ cfg.gates b, Polys Q 20 g.2 := by
  simp only [MulFixed.Config.gates, RunningSum.gates, List.forall_mem_cons, List.forall_mem_append,
    List.not_mem_nil, false_implies, implies_true, and_true]
  refine ⟨coordsCheck_poly b (.mono (d := max 1 (1 + 0)) (by decide) ?_) h7.1 h6.1 h4 h2.1 h3,
    ⟨?_, ha⟩, hi⟩ <;> poly
  all_goals simp only [Near] at * <;> simp only [*]

theorem short_poly (b : ZMod p) {cfg : Short.Config C S} (h1 : Near Q cfg.super.add.yP)
    (h2 : Near Q cfg.super.add.yQR) (h3 : Near Q cfg.super.u) (h4 : Near Q cfg.super.window)
    (hs : ∀ g ∈ cfg.super.gates b, Polys Q 20 g.2) : ∀ g ∈ Short.gates b cfg, Polys Q 20 g.2 := by
  simp only [Short.gates, Short.polys, List.forall_mem_cons]
  refine ⟨?_, hs⟩
  poly
  all_goals simp only [Near] at * <;> simp only [*]

theorem full_poly (b : ZMod p) {cfg : FullWidth.Config C S} (h1 : Near Q cfg.super.window)
    (h2 : Near Q cfg.super.u)
    (h3 : ∀ i, Q (cfg.super.lagrangeCoeffs i) 0) (h4 : Q cfg.super.fixedZ 0)
    (h6 : Near Q cfg.super.add.xP) (h7 : Near Q cfg.super.add.yP)
    (hs : ∀ g ∈ cfg.super.gates b, Polys Q 20 g.2) : ∀ g ∈ FullWidth.gates b cfg, Polys Q 20 g.2 := by
  simp only [FullWidth.gates, List.forall_mem_cons]
  refine ⟨(coordsCheck_poly b (.query h1.1) h7.1 h6.1 h4 h2.1 h3).append ?_, hs⟩
  poly
  exact h1.1

theorem base_poly (b : ZMod p) {cfg : BaseFieldElem.Config C S} (h : ∀ i, Near Q (cfg.canonAdvices i))
    (hl : ∀ g ∈ LookupRange.gates (F := ZMod p) 10 cfg.lookup, Polys Q 20 g.2)
    (hs : ∀ g ∈ cfg.super.gates b, Polys Q 20 g.2) : ∀ g ∈ BaseFieldElem.gates b cfg, Polys Q 20 g.2 := by
  simp only [BaseFieldElem.gates, List.forall_mem_cons, List.forall_mem_append]
  refine ⟨?_, hl, hs⟩
  unfold BaseFieldElem.polys
  generalize (((2 ^ 126 : ℕ) : ZMod p)) ^ 2 = c1
  generalize (((2 ^ 60 : ℕ) : ZMod p)) ^ 2 = c2
  generalize (((2 ^ 65 : ℕ) : ZMod p)) ^ 2 = c3
  dsimp only
  poly
  all_goals first | exact (h _).1 | exact (h _).2.1 | exact (h _).2.2

/-- The gates of the chip read the advice columns at the rotations -1, 0 and 1, the fixed columns at
0. -/
theorem ecc_poly {advices : Fin 10 → C} {lagrangeCoeffs : Fin 8 → C} {fixedZ : C}
    {rangeCheck : LookupRange.Config C S} {s : Selectors S} {Q : C → ℤ → Prop}
    (hA : ∀ i, Near Q (advices i)) (hL : ∀ i, Q (lagrangeCoeffs i) 0)
    (hZ : Q fixedZ 0) (hR : Near Q rangeCheck.runningSum) (b : ZMod p) :
    ∀ g ∈ EccApi.gates b (configure advices lagrangeCoeffs fixedZ rangeCheck s), Polys Q 20 g.2 := by
  have ha : ∀ g ∈ Add.gates (F := ZMod p)
      (configure advices lagrangeCoeffs fixedZ rangeCheck s).add, Polys Q 20 g.2 :=
    add_poly (hA _) (hA _) (hA _) (hA _) (hA _) (hA _) (hA _) (hA _) (hA _)
  have hi : ∀ g ∈ AddIncomplete.gates (F := ZMod p)
      (configure advices lagrangeCoeffs fixedZ rangeCheck s).addIncomplete, Polys Q 20 g.2 :=
    addIncomplete_poly (hA _) (hA _) (hA _) (hA _)
  have hs : ∀ g ∈ (configure advices lagrangeCoeffs fixedZ rangeCheck s).mulFixedFull.super.gates b,
      Polys Q 20 g.2 := super_poly b (hA _) (hA _) hL hZ (hA _) (hA _) (hA _) ha hi
  have hl := lookupRange_poly (F := ZMod p) 10 hR
  simp only [EccApi.gates, Mul.gates, List.forall_mem_append]
  exact ⟨⟨⟨⟨⟨⟨witnessPoint_poly b (hA _) (hA _), hi⟩, ha⟩, ⟨⟨⟨⟨⟨ha, incomplete_poly (hA _) (hA _)
    (hA _) (hA _) (hA _) (hA _)⟩, incomplete_poly (hA _) (hA _) (hA _) (hA _) (hA _) (hA _)⟩,
    complete_poly (hA _) (hA _)⟩, lsb_poly (hA _) (hA _) (hA _)⟩, overflow_poly (hA _) (hA _) (hA _)⟩,
    hl⟩, full_poly b (hA _) (hA _) hL hZ (hA _) (hA _) hs⟩,
    short_poly b (hA _) (hA _) (hA _) (hA _) hs⟩, base_poly b (fun _ => hA _) hl hs⟩

end Ecc

end Verif.Layout
