import Mathlib.Tactic.LinearCombination
import Verif.Region.Lemmas
import Verif.CondSwap.Model
import Verif.Utilities.Props

/-!
# Conditional swap and multiplexer (C37)
-/

namespace Verif.CondSwap

open Verif.Region Verif.Utilities

variable {C S F : Type} [Field F]

/-- The operations recorded by `swap`. -/
def swapOps (cfg : Config C S) (pair : ACell C F × F) (sw : Bool) (n : ℕ) : List (Op C S F) :=
  [.enable cfg.qSwap n 0, .advice ⟨n, cfg.a, 0⟩ pair.1.value, .equal ⟨n, cfg.a, 0⟩ pair.1.cell,
    .advice ⟨n, cfg.b, 0⟩ pair.2, .advice ⟨n, cfg.swap, 0⟩ (if sw then 1 else 0),
    .advice ⟨n, cfg.aSwapped, 0⟩ (if sw then pair.2 else pair.1.value),
    .advice ⟨n, cfg.bSwapped, 0⟩ (if sw then pair.1.value else pair.2)]

theorem swap_run (cfg : Config C S) (pair : ACell C F × F) (sw : Bool) (n : ℕ) :
    swap cfg pair sw n = some
      ((⟨⟨n, cfg.aSwapped, 0⟩, if sw then pair.2 else pair.1.value⟩,
        ⟨⟨n, cfg.bSwapped, 0⟩, if sw then pair.1.value else pair.2⟩), n + 1,
        swapOps cfg pair sw n) := rfl

/-- **C37**, soundness of `swap`: whatever the assignment, if it meets the constraints of the
region, there are a value `b` and a flag, zero or one, such that the outputs are `(b, a)` if the
flag is one and `(a, b)` if it is zero, `a` being the value of the input cell. -/
theorem swap_sound (cfg : Config C S) (pair : ACell C F × F) (sw : Bool) {n n' : ℕ}
    {out : ACell C F × ACell C F} {ops : List (Op C S F)}
    (h : swap cfg pair sw n = some (out, n', ops)) (G : Grid C F) (hs : Sat (gates cfg) G ops) :
    (G n cfg.swap 0 = 1 ∧ G.at out.1.cell = G n cfg.b 0 ∧ G.at out.2.cell = G.at pair.1.cell) ∨
    (G n cfg.swap 0 = 0 ∧ G.at out.1.cell = G.at pair.1.cell ∧ G.at out.2.cell = G n cfg.b 0) := by
  rw [swap_run] at h
  cases h
  have hg := hs.gates _ (List.mem_singleton.2 rfl) n 0 (by simp [swapOps])
  have he := hs.equal ⟨n, cfg.a, 0⟩ pair.1.cell (by simp [swapOps])
  simp only [Grid.query, add_zero, List.mem_cons, List.not_mem_nil, or_false,
    forall_eq_or_imp, forall_eq, boolCheck_iff] at hg
  simp only [Grid.at] at he ⊢
  obtain ⟨h1, h2, h3⟩ := hg
  rcases h3 with h3 | h3 <;> rw [h3] at h1 h2
  · right
    rw [ternary_zero, sub_eq_zero] at h1 h2
    exact ⟨h3, h1.trans he, h2⟩
  · left
    rw [ternary_one, sub_eq_zero] at h1 h2
    exact ⟨h3, h1, h2.trans he⟩

/-- **C37**, completeness of `swap`: the witnesses of the program meet the constraints, and the
outputs are as documented. -/
theorem swap_complete (cfg : Config C S) (pair : ACell C F × F) (sw : Bool) (n : ℕ) :
    ∃ out n' ops, swap cfg pair sw n = some (out, n', ops) ∧
      (out.1.value, out.2.value)
        = (if sw then (pair.2, pair.1.value) else (pair.1.value, pair.2)) ∧
      ∀ G : Grid C F, Honest G ops → G.at pair.1.cell = pair.1.value →
        Sat (gates cfg) G ops ∧ G.at out.1.cell = out.1.value ∧ G.at out.2.cell = out.2.value := by
  refine ⟨_, _, _, swap_run cfg pair sw n, by cases sw <;> rfl, fun G hG hin => ?_⟩
  have h : ∀ c v, Op.advice c v ∈ swapOps cfg pair sw n → G.at c = v := hG.1
  simp only [swapOps, List.mem_cons, reduceCtorEq, false_or, List.not_mem_nil, or_false,
    Op.advice.injEq] at h
  have ha : G n cfg.a 0 = pair.1.value := h ⟨n, cfg.a, 0⟩ _ (by simp)
  have hb : G n cfg.b 0 = pair.2 := h ⟨n, cfg.b, 0⟩ _ (by simp)
  have hsw : G n cfg.swap 0 = if sw then 1 else 0 := h ⟨n, cfg.swap, 0⟩ _ (by simp)
  have ha' : G n cfg.aSwapped 0 = if sw then pair.2 else pair.1.value :=
    h ⟨n, cfg.aSwapped, 0⟩ _ (by simp)
  have hb' : G n cfg.bSwapped 0 = if sw then pair.1.value else pair.2 :=
    h ⟨n, cfg.bSwapped, 0⟩ _ (by simp)
  refine ⟨⟨?_, ?_, ?_, ?_⟩, ha', hb'⟩
  · intro g hg reg row hr
    rw [List.mem_singleton.1 hg] at hr ⊢
    simp only [swapOps, List.mem_cons, reduceCtorEq, List.not_mem_nil, or_false,
      Op.enable.injEq, true_and] at hr
    obtain ⟨rfl, rfl⟩ := hr
    simp only [Grid.query, add_zero, List.mem_cons, List.not_mem_nil, or_false,
      forall_eq_or_imp, forall_eq, boolCheck_iff, ha, hb, hsw, ha', hb']
    cases sw <;> simp [ternary]
  · intro a b hab
    simp only [swapOps, List.mem_cons, reduceCtorEq, false_or, or_false, List.not_mem_nil,
      Op.equal.injEq] at hab
    obtain ⟨rfl, rfl⟩ := hab
    exact ha.trans hin.symm
  · intro c v hcv; simp [swapOps] at hcv
  · intro c v hcv; simp [swapOps] at hcv

variable [DecidableEq F]

/-- The operations recorded by `mux`. -/
def muxOps (cfg : Config C S) (choice left right : ACell C F) (n : ℕ) : List (Op C S F) :=
  [.enable cfg.qSwap n 0, .advice ⟨n, cfg.a, 0⟩ left.value, .equal ⟨n, cfg.a, 0⟩ left.cell,
    .advice ⟨n, cfg.b, 0⟩ right.value, .equal ⟨n, cfg.b, 0⟩ right.cell,
    .advice ⟨n, cfg.swap, 0⟩ choice.value, .equal ⟨n, cfg.swap, 0⟩ choice.cell,
    .advice ⟨n, cfg.bSwapped, 0⟩ (if choice.value = 0 then right.value else left.value),
    .advice ⟨n, cfg.aSwapped, 0⟩ (if choice.value = 0 then left.value else right.value)]

theorem mux_run (cfg : Config C S) (choice left right : ACell C F) (n : ℕ) :
    mux cfg choice left right n = some
      (⟨⟨n, cfg.aSwapped, 0⟩, if choice.value = 0 then left.value else right.value⟩, n + 1,
        muxOps cfg choice left right n) := rfl

/-- **C37**, soundness of `mux`: the choice is zero or one, and the output is `left` if it is zero
and `right` if it is one. -/
theorem mux_sound (cfg : Config C S) (choice left right : ACell C F) {n n' : ℕ} {out : ACell C F}
    {ops : List (Op C S F)} (h : mux cfg choice left right n = some (out, n', ops))
    (G : Grid C F) (hs : Sat (gates cfg) G ops) :
    (G.at choice.cell = 0 ∧ G.at out.cell = G.at left.cell) ∨
    (G.at choice.cell = 1 ∧ G.at out.cell = G.at right.cell) := by
  rw [mux_run] at h
  cases h
  have hg := hs.gates _ (List.mem_singleton.2 rfl) n 0 (by simp [muxOps])
  have h1 := hs.equal ⟨n, cfg.a, 0⟩ left.cell (by simp [muxOps])
  have h2 := hs.equal ⟨n, cfg.b, 0⟩ right.cell (by simp [muxOps])
  have h3 := hs.equal ⟨n, cfg.swap, 0⟩ choice.cell (by simp [muxOps])
  simp only [Grid.query, add_zero, List.mem_cons, List.not_mem_nil, or_false,
    forall_eq_or_imp, forall_eq, boolCheck_iff] at hg
  simp only [Grid.at] at h1 h2 h3 ⊢
  rw [← h1, ← h2, ← h3]
  obtain ⟨h4, -, h5⟩ := hg
  rcases h5 with h5 | h5 <;> rw [h5] at h4
  · left; rw [ternary_zero, sub_eq_zero] at h4; exact ⟨h5, h4⟩
  · right; rw [ternary_one, sub_eq_zero] at h4; exact ⟨h5, h4⟩

/-- **C37**, completeness of `mux`: if the choice is zero or one, the witnesses of the program
meet the constraints. -/
theorem mux_complete (cfg : Config C S) (choice left right : ACell C F) (n : ℕ)
    (hc : choice.value = 0 ∨ choice.value = 1) :
    ∃ out n' ops, mux cfg choice left right n = some (out, n', ops) ∧
      out.value = (if choice.value = 0 then left.value else right.value) ∧
      ∀ G : Grid C F, Honest G ops → G.at choice.cell = choice.value →
        G.at left.cell = left.value → G.at right.cell = right.value →
        Sat (gates cfg) G ops ∧ G.at out.cell = out.value := by
  refine ⟨_, _, _, mux_run cfg choice left right n, rfl, fun G hG hci hl hr => ?_⟩
  have h : ∀ c v, Op.advice c v ∈ muxOps cfg choice left right n → G.at c = v := hG.1
  simp only [muxOps, List.mem_cons, reduceCtorEq, false_or, List.not_mem_nil, or_false,
    Op.advice.injEq] at h
  have ha : G n cfg.a 0 = left.value := h ⟨n, cfg.a, 0⟩ _ (by simp)
  have hb : G n cfg.b 0 = right.value := h ⟨n, cfg.b, 0⟩ _ (by simp)
  have hsw : G n cfg.swap 0 = choice.value := h ⟨n, cfg.swap, 0⟩ _ (by simp)
  have ha' : G n cfg.aSwapped 0 = if choice.value = 0 then left.value else right.value :=
    h ⟨n, cfg.aSwapped, 0⟩ _ (by simp)
  have hb' : G n cfg.bSwapped 0 = if choice.value = 0 then right.value else left.value :=
    h ⟨n, cfg.bSwapped, 0⟩ _ (by simp)
  refine ⟨⟨?_, ?_, ?_, ?_⟩, ha'⟩
  · intro g hg reg row hrow
    rw [List.mem_singleton.1 hg] at hrow ⊢
    simp only [muxOps, List.mem_cons, reduceCtorEq, List.not_mem_nil, or_false,
      Op.enable.injEq, true_and] at hrow
    obtain ⟨rfl, rfl⟩ := hrow
    simp only [Grid.query, add_zero, List.mem_cons, List.not_mem_nil, or_false,
      forall_eq_or_imp, forall_eq, boolCheck_iff, ha, hb, hsw, ha', hb']
    rcases hc with hc | hc <;> simp [hc, ternary]
  · intro a b hab
    simp only [muxOps, List.mem_cons, reduceCtorEq, false_or, or_false, List.not_mem_nil,
      Op.equal.injEq] at hab
    rcases hab with ⟨rfl, rfl⟩ | ⟨rfl, rfl⟩ | ⟨rfl, rfl⟩
    · exact ha.trans hl.symm
    · exact hb.trans hr.symm
    · exact hsw.trans hci.symm
  · intro c v hcv; simp [muxOps] at hcv
  · intro c v hcv; simp [muxOps] at hcv

/-- If the choice is neither zero nor one, nothing meets the constraints of `mux`. -/
theorem mux_rejects (cfg : Config C S) (choice left right : ACell C F) {n n' : ℕ} {out : ACell C F}
    {ops : List (Op C S F)} (h : mux cfg choice left right n = some (out, n', ops)) (G : Grid C F)
    (h0 : G.at choice.cell ≠ 0) (h1 : G.at choice.cell ≠ 1) : ¬ Sat (gates cfg) G ops :=
  fun hs => (mux_sound cfg choice left right h G hs).elim (fun h => h0 h.1) fun h => h1 h.1

/-- **C37** for points: both coordinates come from the same side. -/
theorem muxOnPoints_sound (cfg : Config C S) (choice : ACell C F)
    (left right : ACell C F × ACell C F) {n n' : ℕ} {out : ACell C F × ACell C F}
    {ops : List (Op C S F)} (h : muxOnPoints cfg choice left right n = some (out, n', ops))
    (G : Grid C F) (hs : Sat (gates cfg) G ops) :
    (G.at choice.cell = 0 ∧ G.at out.1.cell = G.at left.1.cell ∧
      G.at out.2.cell = G.at left.2.cell) ∨
    (G.at choice.cell = 1 ∧ G.at out.1.cell = G.at right.1.cell ∧
      G.at out.2.cell = G.at right.2.cell) := by
  unfold muxOnPoints at h
  obtain ⟨x, n₁, o₁, o₂, h1, h2, rfl⟩ := bind_some h
  obtain ⟨y, n₂, o₃, o₄, h3, h4, rfl⟩ := bind_some h2
  cases h4
  have e1 := mux_sound cfg _ _ _ h1 G hs.left
  have e2 := mux_sound cfg _ _ _ h3 G hs.right.left
  rcases e1 with e1 | e1 <;> rcases e2 with e2 | e2
  · exact .inl ⟨e1.1, e1.2, e2.2⟩
  · exact absurd (e1.1.symm.trans e2.1) zero_ne_one
  · exact absurd (e2.1.symm.trans e1.1) zero_ne_one
  · exact .inr ⟨e1.1, e1.2, e2.2⟩

/-! ## Example -/

def exConfig : Config ℕ ℕ := ⟨0, 1, 2, 3, 4, 5⟩

/-- Input `3`, witness `4`, swapped: the witnesses of the program are an assignment that meets
the hypotheses of soundness and of completeness. -/
example : ∃ out n' ops, swap exConfig (⟨⟨0, 0, 0⟩, (3 : ZMod 17)⟩, 4) true 1 = some (out, n', ops) ∧
    (out.1.value, out.2.value) = (4, 3) ∧
    Sat (gates exConfig) (gridOf (.advice ⟨0, 0, 0⟩ 3 :: ops)) ops := by
  obtain ⟨out, n', ops, h1, h2, h3⟩ :=
    swap_complete exConfig (⟨⟨0, 0, 0⟩, (3 : ZMod 17)⟩, 4) true 1
  refine ⟨out, n', ops, h1, h2, (h3 _ ?_ ?_).1⟩
  · rw [swap_run] at h1; cases h1
    constructor <;> intro c v hcv <;>
      simp only [swapOps, List.mem_cons, reduceCtorEq, false_or, or_false, List.not_mem_nil,
        Op.advice.injEq, Op.fixed.injEq] at hcv
    rcases hcv with ⟨rfl, rfl⟩ | ⟨rfl, rfl⟩ | ⟨rfl, rfl⟩ | ⟨rfl, rfl⟩ | ⟨rfl, rfl⟩ <;> decide
  · rw [swap_run] at h1; cases h1; decide

end Verif.CondSwap
