import Mathlib.Tactic.Ring
import Mathlib.Tactic.LinearCombination
import Mathlib.LinearAlgebra.Matrix.NonsingularInverse
import Verif.Region.Consistent
import Verif.Poseidon.Props
import Verif.Pow5.Model

/-!
# The Poseidon permutation chip (C42)
-/

namespace Verif.Pow5

open Verif.Region Verif.Poseidon Matrix

variable {C S F : Type} [Field F] {r : ℕ}

/-! ## The gates -/

theorem pow5_eq (v : F) : pow5 v = v ^ 5 := by simp only [pow5]; ring

theorem reduceAdd_eq (l : List F) : reduceAdd l = l.sum := by
  have : ∀ (l : List F) (a : F), l.foldl (· + ·) a = a + l.sum := by
    intro l
    induction l with
    | nil => simp
    | cons b l ih => intro a; rw [List.foldl_cons, ih, List.sum_cons, add_assoc]
  cases l with
  | nil => rfl
  | cons a l => rw [reduceAdd, this, List.sum_cons]

theorem sum_finRange {n : ℕ} (f : Fin n → F) : ((List.finRange n).map f).sum = ∑ i, f i := by
  rw [← List.ofFn_eq_map, List.sum_ofFn]

/-- The state, the intermediate value and the constants seen by a gate. -/
theorem fullGate_iff (cfg : Config C S r) (P : Spec F (r + 1)) (q : C → ℤ → F) :
    (∀ p ∈ fullGate cfg P q, p = 0) ↔
      (fun i => q (cfg.state i) 1) = specRound (.of P.mds) (· ^ 5) true (fun i => q (cfg.rcA i) 0)
        fun i => q (cfg.state i) 0 := by
  simp only [fullGate, List.mem_map, List.mem_finRange, true_and, forall_exists_index,
    forall_apply_eq_imp_iff, reduceAdd_eq, sum_finRange, pow5_eq, sub_eq_zero, funext_iff]
  refine forall_congr' fun i => ?_
  rw [eq_comm]
  simp only [specRound, mulVec, dotProduct, of_apply, true_or, if_true, mul_comm]

/-- One partial round on values: the specification. -/
theorem partialSboxes_eq (rc p : State F (r + 1)) :
    partialSboxes rc p = fun i => if i = 0 then (p i + rc i) ^ 5 else p i + rc i := by
  funext i
  refine Fin.cases ?_ (fun j => ?_) i
  · simp [partialSboxes]
  · simp [partialSboxes, Fin.succ_ne_zero]

theorem specRound_partial (m : Matrix (Fin (r + 1)) (Fin (r + 1)) F) (rc s : Fin (r + 1) → F) :
    specRound m (· ^ 5) false rc s = m *ᵥ partialSboxes rc s := by
  rw [specRound, partialSboxes_eq]
  simp

theorem mid_eq (cfg : Config C S r) (P : Spec F (r + 1)) (q : C → ℤ → F) (idx : Fin (r + 1)) :
    mid cfg P q idx = (Matrix.of P.mds *ᵥ Fin.cons (q cfg.partialSbox 0) fun k =>
      q (cfg.state k.succ) 0 + q (cfg.rcA k.succ) 0) idx := by
  rw [mid, foldl_add_eq_sum _ (fun k : Fin r =>
    (q (cfg.state k.succ) 0 + q (cfg.rcA k.succ) 0) * P.mds idx k.succ), sum_finRange]
  simp only [mulVec, dotProduct, Fin.sum_univ_succ, Fin.cons_zero, Fin.cons_succ, of_apply,
    mul_comm]

theorem nextState_eq (cfg : Config C S r) (P : Spec F (r + 1)) (q : C → ℤ → F)
    (idx : Fin (r + 1)) :
    nextState cfg P q idx = (Matrix.of P.mdsInv *ᵥ fun i => q (cfg.state i) 1) idx := by
  rw [nextState, reduceAdd_eq, sum_finRange]
  simp only [mulVec, dotProduct, of_apply, mul_comm]

/-- The gate for two partial rounds holds iff the intermediate S-box output is right and the next
state is the one after two rounds. -/
theorem partialGate_iff (cfg : Config C S r) (P : Spec F (r + 1))
    (hinv : Matrix.of P.mds * Matrix.of P.mdsInv = 1) (q : C → ℤ → F) :
    (∀ p ∈ partialGate cfg P q, p = 0) ↔
      q cfg.partialSbox 0 = (q (cfg.state 0) 0 + q (cfg.rcA 0) 0) ^ 5 ∧
      (fun i => q (cfg.state i) 1) = specRound (.of P.mds) (· ^ 5) false (fun i => q (cfg.rcB i) 0)
        (specRound (.of P.mds) (· ^ 5) false (fun i => q (cfg.rcA i) 0)
          fun i => q (cfg.state i) 0) := by
  have hinv' : Matrix.of P.mdsInv * Matrix.of P.mds = 1 := mul_eq_one_comm.1 hinv
  set u : Fin (r + 1) → F := Fin.cons (q cfg.partialSbox 0) fun k =>
      q (cfg.state k.succ) 0 + q (cfg.rcA k.succ) 0 with hu
  set x : Fin (r + 1) → F := fun i => q (cfg.state i) 1 with hx
  have h1 : (∀ p ∈ partialGate cfg P q, p = 0) ↔
      (q (cfg.state 0) 0 + q (cfg.rcA 0) 0) ^ 5 = q cfg.partialSbox 0 ∧
      partialSboxes (fun i => q (cfg.rcB i) 0) (Matrix.of P.mds *ᵥ u) = Matrix.of P.mdsInv *ᵥ x := by
    simp only [partialGate, List.mem_append, List.mem_cons, List.not_mem_nil, or_false,
      List.mem_map, List.mem_finRange, true_and, pow5_eq, mid_eq, nextState_eq]
    constructor
    · intro h
      refine ⟨sub_eq_zero.1 (h _ (Or.inl (Or.inl rfl))), ?_⟩
      funext i
      refine Fin.cases ?_ (fun j => ?_) i
      · exact sub_eq_zero.1 (h _ (Or.inl (Or.inr rfl)))
      · exact sub_eq_zero.1 (h _ (Or.inr ⟨j, rfl⟩))
    · rintro ⟨h1, h2⟩ p ((rfl | rfl) | ⟨j, rfl⟩)
      · exact sub_eq_zero.2 h1
      · exact sub_eq_zero.2 (congrFun h2 0)
      · exact sub_eq_zero.2 (congrFun h2 j.succ)
  rw [h1, eq_comm (a := q cfg.partialSbox 0)]
  refine and_congr_right fun h0 => ?_
  have hu' : u = partialSboxes (fun i => q (cfg.rcA i) 0) fun i => q (cfg.state i) 0 := by
    rw [hu, ← h0]; rfl
  rw [specRound_partial, specRound_partial, ← hu']
  constructor
  · intro h; rw [h, mulVec_mulVec, hinv, one_mulVec]
  · intro h; rw [h, mulVec_mulVec, hinv', one_mulVec]

/-! ## Rounds -/

/-- The columns and selectors are different. -/
structure Config.Ok (cfg : Config C S r) : Prop where
  state : Function.Injective cfg.state
  rcA : Function.Injective cfg.rcA
  rcB : Function.Injective cfg.rcB
  rcAB : ∀ i j, cfg.rcA i ≠ cfg.rcB j
  stateA : ∀ i j, cfg.state i ≠ cfg.rcA j
  stateB : ∀ i j, cfg.state i ≠ cfg.rcB j
  sboxState : ∀ i, cfg.state i ≠ cfg.partialSbox
  sboxA : ∀ i, cfg.rcA i ≠ cfg.partialSbox
  sboxB : ∀ i, cfg.rcB i ≠ cfg.partialSbox
  sel₁ : cfg.sFull ≠ cfg.sPartial
  sel₂ : cfg.sFull ≠ cfg.sPadAndAdd
  sel₃ : cfg.sPartial ≠ cfg.sPadAndAdd

/-- The cells assigned by the rounds from row `a` to row `a'`. -/
def area (cfg : Config C S r) (reg : ℕ) (a a' : ℤ) (c : Cell C) : Prop :=
  c.reg = reg ∧ ((c.col ∈ Set.range cfg.state ∧ a < c.row ∧ c.row ≤ a') ∨
    (c.col ∉ Set.range cfg.state ∧ a ≤ c.row ∧ c.row < a'))

/-- A part of the region that goes from the state at row `a` to the state at row `a'` computes the
function `f`: its constraints force the values, and its witnesses satisfy them. -/
def StepOk (cfg : Config C S r) (P : Spec F (r + 1)) (reg a a' : ℕ)
    (f : State F (r + 1) → State F (r + 1)) (prog : Words C F r → M C S F (Words C F r)) : Prop :=
  a ≤ a' ∧ ∀ st n, (∀ i, (st i).cell = ⟨reg, cfg.state i, a⟩) →
    ∃ out ops, prog st n = some (out, n, ops) ∧ (∀ i, (out i).cell = ⟨reg, cfg.state i, a'⟩) ∧
      (fun i => (out i).value) = f (fun i => (st i).value) ∧
      Within ops (area cfg reg a a') ∧ Consistent ops ∧
      ∀ G : Grid C F,
        (Sat (gates cfg P) G ops →
          (fun i => G reg (cfg.state i) a') = f fun i => G reg (cfg.state i) a) ∧
        (Honest G ops → (∀ i, G reg (cfg.state i) a = (st i).value) →
          Sat (gates cfg P) G ops ∧ ∀ i, G reg (cfg.state i) a' = (out i).value)

theorem StepOk.comp {cfg : Config C S r} {P : Spec F (r + 1)} {reg a a' a'' : ℕ}
    {f f' : State F (r + 1) → State F (r + 1)} {p p' : Words C F r → M C S F (Words C F r)}
    (h : StepOk cfg P reg a a' f p) (h' : StepOk cfg P reg a' a'' f' p') :
    StepOk cfg P reg a a'' (f' ∘ f) fun st => p st >>= p' := by
  refine ⟨h.1.trans h'.1, fun st n hst => ?_⟩
  obtain ⟨out, ops, h1, h2, h3, h4, h5, h6⟩ := h.2 st n hst
  obtain ⟨out', ops', h1', h2', h3', h4', h5', h6'⟩ := h'.2 out n h2
  have hle : (a : ℤ) ≤ a' := by exact_mod_cast h.1
  have hle' : (a' : ℤ) ≤ a'' := by exact_mod_cast h'.1
  refine ⟨out', ops ++ ops', bind_of h1 h1', h2', by rw [h3', h3]; rfl, ?_, ?_, fun G => ⟨?_, ?_⟩⟩
  · refine (h4.append h4').mono fun c hc => ?_
    rcases hc with ⟨e, hc | hc⟩ | ⟨e, hc | hc⟩
    · exact ⟨e, Or.inl ⟨hc.1, hc.2.1, hc.2.2.trans hle'⟩⟩
    · exact ⟨e, Or.inr ⟨hc.1, hc.2.1, lt_of_lt_of_le hc.2.2 hle'⟩⟩
    · exact ⟨e, Or.inl ⟨hc.1, lt_of_le_of_lt hle hc.2.1, hc.2.2⟩⟩
    · exact ⟨e, Or.inr ⟨hc.1, hle.trans hc.2.1, hc.2.2⟩⟩
  · refine h5.append h5' h4 h4' fun c hc hc' => ?_
    rcases hc with ⟨-, hc | hc⟩ <;> rcases hc' with ⟨-, hc' | hc'⟩
    · exact absurd hc'.2.1 (not_lt.2 hc.2.2)
    · exact hc'.1 hc.1
    · exact hc.1 hc'.1
    · exact absurd hc.2.2 (not_lt.2 hc'.2.1)
  · intro hs
    rw [(h6' G).1 hs.right, (h6 G).1 hs.left]; rfl
  · intro hG hin
    obtain ⟨s1, v1⟩ := (h6 G).2 hG.left hin
    obtain ⟨s2, v2⟩ := (h6' G).2 hG.right v1
    exact ⟨s1.append s2, v2⟩

theorem StepOk.refl (cfg : Config C S r) (P : Spec F (r + 1)) (reg a : ℕ) :
    StepOk cfg P reg a a id (fun st => pure st) := by
  refine ⟨le_rfl, fun st n hst => ⟨st, [], rfl, hst, rfl, Within.nil, Consistent.nil,
    fun G => ⟨fun _ => rfl, fun _ h => ⟨Sat.nil _ _, h⟩⟩⟩⟩

/-- Loops of steps. -/
theorem StepOk.loop {cfg : Config C S r} {P : Spec F (r + 1)} {reg : ℕ} (row : ℕ → ℕ)
    (f : ℕ → State F (r + 1) → State F (r + 1)) (p : ℕ → Words C F r → M C S F (Words C F r))
    (k : ℕ) (h : ∀ i < k, StepOk cfg P reg (row i) (row (i + 1)) (f i) (p i)) :
    StepOk cfg P reg (row 0) (row k) (fun s => (List.range k).foldl (fun s i => f i s) s)
      fun st => (List.range k).foldlM (fun st i => p i st) st := by
  induction k with
  | zero => exact StepOk.refl cfg P reg (row 0)
  | succ k ih =>
    have h1 := (ih fun i hi => h i (by omega)).comp (h k (by omega))
    have e : (fun st => (List.range (k + 1)).foldlM (fun st i => p i st) st)
        = fun st => (List.range k).foldlM (fun st i => p i st) st >>= p k := by
      funext st
      rw [List.range_succ, List.foldlM_append]
      congr 1
      funext x
      simp
    have e' : (fun s => (List.range (k + 1)).foldl (fun s i => f i s) s)
        = f k ∘ fun s => (List.range k).foldl (fun s i => f i s) s := by
      funext s
      rw [List.range_succ, List.foldl_append]
      rfl
    rw [e, e']
    exact h1

end Verif.Pow5
