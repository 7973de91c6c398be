import Verif.EccApi.Local
import Verif.MulFixed.BaseComplete

/-!
# The selectors a call enables
-/

namespace Verif.Region

variable {C S F α β : Type} {A : S → Prop}

/-- The selectors enabled by a program satisfy `A`. -/
def Uses (A : S → Prop) (f : M C S F α) : Prop :=
  ∀ n a n' ops, f n = some (a, n', ops) → ∀ s reg row, .enable s reg row ∈ ops → A s

theorem Uses.pure (a : α) : Uses A (pure a : M C S F α) := by
  intro n a' n' ops h s reg row hm
  cases h; cases hm

theorem Uses.bind {f : M C S F α} {g : α → M C S F β} (hf : Uses A f) (hg : ∀ a, Uses A (g a)) :
    Uses A (f >>= g) := by
  intro n b n'' ops h s reg row hm
  obtain ⟨a, n', o1, o2, h1, h2, rfl⟩ := bind_some h
  rcases List.mem_append.1 hm with hm | hm
  · exact hf _ _ _ _ h1 _ _ _ hm
  · exact hg _ _ _ _ _ h2 _ _ _ hm

theorem Uses.emit {op : Op C S F} (h : ∀ s reg row, op = .enable s reg row → A s) :
    Uses A (emit op) := by
  intro n a n' ops h' s reg row hm
  cases h'
  exact h _ _ _ (List.mem_singleton.1 hm).symm

theorem Uses.assert {c : Prop} {d : Decidable c} : Uses A (@assert C S F c d) := by
  intro n a n' ops h s reg row hm
  obtain ⟨-, -, rfl⟩ := assert_some h
  cases hm

theorem Uses.unwrap {x : Option α} : Uses A (unwrap x : M C S F α) := by
  intro n a n' ops h s reg row hm
  obtain ⟨-, -, rfl⟩ := unwrap_some h
  cases hm

theorem Uses.assignAdvice {reg : ℕ} {col : C} {offset : ℕ} {v : F} :
    Uses A (assignAdvice reg col offset v : M C S F _) :=
  (Uses.emit (by intro _ _ _ h; cases h)).bind fun _ => Uses.pure _

theorem Uses.assignFixed {reg : ℕ} {col : C} {offset : ℕ} {v : F} :
    Uses A (assignFixed reg col offset v : M C S F _) :=
  (Uses.emit (by intro _ _ _ h; cases h)).bind fun _ => Uses.pure _

theorem Uses.constrainEqual {a b : Cell C} : Uses A (constrainEqual a b : M C S F Unit) :=
  Uses.emit (by intro _ _ _ h; cases h)

theorem Uses.constrainConstant {a : Cell C} {v : F} :
    Uses A (constrainConstant a v : M C S F Unit) := Uses.emit (by intro _ _ _ h; cases h)

theorem Uses.enable {s : S} {reg offset : ℕ} (h : A s) : Uses A (enable s reg offset : M C S F Unit) :=
  Uses.emit (by intro _ _ _ e; cases e; exact h)

theorem Uses.assignAdviceFromConstant {reg : ℕ} {col : C} {offset : ℕ} {v : F} :
    Uses A (assignAdviceFromConstant reg col offset v : M C S F _) :=
  Uses.assignAdvice.bind fun _ => Uses.constrainConstant.bind fun _ => Uses.pure _

theorem Uses.copyAdvice {reg : ℕ} {col : C} {offset : ℕ} {a : ACell C F} :
    Uses A (a.copyAdvice reg col offset : M C S F _) :=
  Uses.assignAdvice.bind fun _ => Uses.constrainEqual.bind fun _ => Uses.pure _

theorem Uses.assignRegion {f : ℕ → M C S F α} (h : ∀ reg, Uses A (f reg)) :
    Uses A (assignRegion f) := fun n a n' ops h' => h n (n + 1) a n' ops h'

/-- Splits a program into the ones it is made of. -/
macro "uses" : tactic =>
  `(tactic| repeat' first
    | exact Uses.pure _ | exact Uses.assert | exact Uses.unwrap | exact Uses.copyAdvice
    | exact Uses.assignAdviceFromConstant | exact Uses.constrainConstant | exact Uses.constrainEqual
    | exact Uses.assignAdvice | exact Uses.assignFixed | exact Uses.enable (by assumption)
    | assumption | refine Uses.bind ?_ fun _ => ?_)

end Verif.Region

namespace Verif.EccApi

open Verif.Region Verif.Ecc Verif.MulFixed Verif.Utilities Verif.RunningSum

variable {C S F : Type} {A : S → Prop} {p q : ℕ} [Fact p.Prime] [Fact q.Prime] {b : ZMod p}

theorem add_uses [Field F] [DecidableEq F] {cfg : Add.Config C S} (h : A cfg.qAdd)
    {x y : EccPoint C F} {reg offset : ℕ} : Uses A (Add.assignRegion cfg x y reg offset) := by
  unfold Add.assignRegion
  uses

theorem addIncomplete_uses [Field F] [DecidableEq F] {cfg : AddIncomplete.Config C S}
    (h : A cfg.qAddIncomplete) {x y : EccPoint C F} {reg offset : ℕ} :
    Uses A (AddIncomplete.assignRegion cfg x y reg offset) := by
  unfold AddIncomplete.assignRegion
  uses

theorem enableRows_uses {s : S} (h : A s) {reg offset n : ℕ} :
    Uses A (enableRows s reg offset n : M C S F Unit) := by
  induction n generalizing offset with
  | zero => exact Uses.pure _
  | succ n ih => unfold enableRows; uses; exact ih

theorem assignSums_uses [Field F] {reg : ℕ} {col : C} {inv : F} {row : ℕ} {z : ACell C F}
    {ws : List F} : Uses A (assignSums reg col inv row z ws : M C S F _) := by
  induction ws generalizing row z with
  | nil => exact Uses.pure _
  | cons w ws ih => unfold assignSums; uses; exact ih

theorem rangeLoop_uses {cfg : LookupRange.Config C S} (h1 : A cfg.qLookup) (h2 : A cfg.qRunning)
    {reg : ℕ} {inv : ZMod p} {idx : ℕ} {z : ACell C (ZMod p)} {ws : List (ZMod p)} :
    Uses A (LookupRange.rangeLoop cfg reg inv idx z ws : M C S (ZMod p) _) := by
  induction ws generalizing idx z with
  | nil => exact Uses.pure _
  | cons w ws ih => unfold LookupRange.rangeLoop; uses; exact ih

theorem rangeCheck_uses {cfg : LookupRange.Config C S} (h1 : A cfg.qLookup) (h2 : A cfg.qRunning)
    {reprBits capacity K reg : ℕ} {element : ACell C (ZMod p)} {numWords : ℕ} {strict : Bool} :
    Uses A (LookupRange.rangeCheck reprBits capacity K cfg reg element numWords strict) := by
  have h := @rangeLoop_uses C S A p _ cfg h1 h2
  unfold LookupRange.rangeCheck
  cases strict
  · uses; exact h
  · uses; exact h

/-! ## Variable-base multiplication -/

section

variable [Field F] {reg : ℕ}

theorem loop_uses {cfg : Mul.Incomplete.Config C S} {xp yp : F} {row : ℕ} {xa : ACell C F}
    {ya : F} {z : ACell C F} {ks : List Bool} :
    Uses A (Mul.Incomplete.loop cfg reg xp yp row xa ya z ks) := by
  induction ks generalizing row xa ya z with
  | nil => exact Uses.pure _
  | cons k ks ih => unfold Mul.Incomplete.loop; uses; exact ih

theorem enableLoop_uses {cfg : Mul.Complete.Config C S} (h : A cfg.qMulDecomposeVar) {offset n : ℕ} :
    Uses A (Mul.Complete.enableLoop cfg reg offset n : M C S F Unit) := by
  induction n with
  | zero => exact Uses.pure _
  | succ n ih => unfold Mul.Complete.enableLoop; uses

variable [DecidableEq F]

theorem doubleAndAdd_uses {numBits : ℕ} {cfg : Mul.Incomplete.Config C S} (h1 : A cfg.qMul1)
    (h2 : A cfg.qMul2) (h3 : A cfg.qMul3) {offset : ℕ}
    {base : EccPoint C F} {bits : List Bool} {acc : EccPoint C F} {z : ACell C F} :
    Uses A (Mul.Incomplete.doubleAndAdd numBits cfg reg offset base bits acc z) := by
  unfold Mul.Incomplete.doubleAndAdd
  uses
  · exact enableRows_uses h2
  · exact loop_uses

theorem completeLoop_uses {cfg : Mul.Complete.Config C S} (h : A cfg.add.qAdd) {base : EccPoint C F}
    {row : ℕ} {acc : EccPoint C F} {z : ACell C F} {ks : List Bool} :
    Uses A (Mul.Complete.loop cfg reg base row acc z ks) := by
  induction ks generalizing row acc z with
  | nil => exact Uses.pure _
  | cons k ks ih =>
    unfold Mul.Complete.loop
    exact Uses.assignAdvice.bind fun _ => Uses.copyAdvice.bind fun _ => Uses.assignAdvice.bind fun _ =>
      (add_uses h).bind fun _ => (add_uses h).bind fun _ => ih.bind fun _ => Uses.pure _

theorem complete_uses {len : ℕ} {cfg : Mul.Complete.Config C S} (h : A cfg.add.qAdd)
    (h' : A cfg.qMulDecomposeVar) {offset : ℕ}
    {bits : List Bool} {base acc : EccPoint C F} {z : ACell C F} :
    Uses A (Mul.Complete.assignRegion len cfg reg offset bits base acc z) :=
  Uses.assert.bind fun _ => (enableLoop_uses h').bind fun _ => Uses.copyAdvice.bind fun _ =>
    completeLoop_uses h

theorem processLsb_uses {cfg : Mul.Config C S} (h : A cfg.add.qAdd) (h' : A cfg.qMulLsb)
    {offset : ℕ} {base acc : EccPoint C F} {z1 : ACell C F}
    {lsb : Bool} : Uses A (Mul.processLsb cfg reg offset base acc z1 lsb) :=
  (Uses.enable h').bind fun _ => Uses.assignAdvice.bind fun _ => Uses.copyAdvice.bind fun _ =>
    Uses.copyAdvice.bind fun _ => Uses.assignAdvice.bind fun _ => Uses.assignAdvice.bind fun _ =>
      (add_uses h).bind fun _ => Uses.pure _

end

/-- The selectors of the variable-base multiplication. -/
def mulSels (cfg : Mul.Config C S) : List S :=
  [cfg.add.qAdd, cfg.hi.qMul1, cfg.hi.qMul2, cfg.hi.qMul3, cfg.lo.qMul1, cfg.lo.qMul2,
    cfg.lo.qMul3, cfg.complete.add.qAdd, cfg.complete.qMulDecomposeVar, cfg.qMulLsb,
    cfg.overflow.qMulOverflow, cfg.overflow.lookup.qLookup, cfg.overflow.lookup.qRunning]

theorem mulAssign_uses {cfg : Mul.Config C S} (h : ∀ s ∈ mulSels cfg, A s) {alpha : ACell C (ZMod p)}
    {base : EccPoint C (ZMod p)} : Uses A (Mul.assign cfg alpha base) := by
  simp only [mulSels, List.mem_cons, List.not_mem_nil, or_false, forall_eq_or_imp, forall_eq] at h
  obtain ⟨a1, a2, a3, a4, a5, a6, a7, a8, a9, a10, a11, a12, a13⟩ := h
  refine Uses.bind (Uses.assignRegion fun reg => ?_) fun r => Uses.bind ?_ fun _ => Uses.pure _
  · exact Uses.unwrap.bind fun _ => (add_uses a1).bind fun _ => Uses.assignAdviceFromConstant.bind fun _ =>
      (doubleAndAdd_uses a2 a3 a4).bind fun _ => Uses.unwrap.bind fun _ =>
      (doubleAndAdd_uses a5 a6 a7).bind fun _ => Uses.assert.bind fun _ => Uses.unwrap.bind fun _ =>
        (complete_uses a8 a9).bind fun _ => Uses.unwrap.bind fun _ => (processLsb_uses a1 a10).bind
          fun _ => Uses.assert.bind fun _ => Uses.pure _
  · exact Uses.unwrap.bind fun _ => (Uses.assignRegion fun _ => Uses.assignAdvice).bind fun _ =>
      (Uses.assert.bind fun _ => (Uses.assignRegion fun _ => Uses.copyAdvice.bind fun _ =>
        rangeCheck_uses a12 a13).bind fun _ => Uses.unwrap).bind fun _ =>
      Uses.assignRegion fun _ => (Uses.enable a11).bind fun _ => Uses.unwrap.bind fun _ =>
        Uses.copyAdvice.bind fun _ => Uses.unwrap.bind fun _ => Uses.copyAdvice.bind fun _ =>
          Uses.assignAdvice.bind fun _ => Uses.copyAdvice.bind fun _ => Uses.copyAdvice.bind fun _ =>
            Uses.copyAdvice.bind fun _ => Uses.copyAdvice.bind fun _ => Uses.pure _

/-! ## Fixed-base multiplication -/

theorem assignRow_uses {cfg : MulFixed.Config C S} {reg row : ℕ} {cs : List (ZMod p)} {z : ℕ}
    {ks : List (Fin 8)} : Uses A (assignRow cfg reg row cs z ks) := by
  induction ks with
  | nil => exact Uses.assignFixed.bind fun _ => Uses.pure _
  | cons k ks ih => exact Uses.unwrap.bind fun _ => Uses.assignFixed.bind fun _ => ih

theorem assignFixedConstants_uses {cfg : MulFixed.Config C S} {base : FixedPoint b} {toggle : S}
    (h : A toggle) {reg offset w n : ℕ} :
    Uses A (assignFixedConstants cfg base toggle reg offset w n) := by
  induction n generalizing w with
  | zero => exact Uses.pure _
  | succ n ih =>
    exact (Uses.enable h).bind fun _ => Uses.unwrap.bind fun _ => Uses.unwrap.bind fun _ =>
      assignRow_uses.bind fun _ => ih

theorem processWindow_uses {cfg : MulFixed.Config C S} {N reg offset w k : ℕ} {s : ZMod q}
    {base : FixedPoint b} : Uses A (processWindow cfg N reg offset w k s base) :=
  Uses.assert.bind fun _ => Uses.unwrap.bind fun _ => Uses.assert.bind fun _ =>
    Uses.assignAdvice.bind fun _ => Uses.assert.bind fun _ => Uses.assignAdvice.bind fun _ =>
      Uses.unwrap.bind fun _ => Uses.unwrap.bind fun _ => Uses.assignAdvice.bind fun _ => Uses.pure _

theorem addLoop_uses {cfg : MulFixed.Config C S} (h : A cfg.addIncomplete.qAddIncomplete)
    {N reg offset : ℕ} {base : FixedPoint b} {w : ℕ}
    {acc : EccPoint C (ZMod p)} {ks : List (ZMod q)} :
    Uses A (addLoop cfg N reg offset base w acc ks) := by
  induction ks generalizing w acc with
  | nil => exact Uses.pure _
  | cons k ks ih => exact processWindow_uses.bind fun _ => (addIncomplete_uses h).bind fun _ => ih

theorem inner_uses {cfg : MulFixed.Config C S} (h : A cfg.addIncomplete.qAddIncomplete)
    {N reg offset : ℕ} {windows : List (ZMod q)} {base : FixedPoint b} {toggle : S} (h' : A toggle) :
    Uses A (assignRegionInner cfg N reg offset windows base toggle) :=
  Uses.assert.bind fun _ => (assignFixedConstants_uses h').bind fun _ => Uses.unwrap.bind fun _ =>
    processWindow_uses.bind fun _ => Uses.assert.bind fun _ => (addLoop_uses h).bind fun _ =>
      Uses.unwrap.bind fun _ => processWindow_uses.bind fun _ => Uses.pure _

theorem copyDecompose_uses {reprBits K : ℕ} {cfg : RunningSum.Config C S} (h : A cfg.qRangeCheck)
    {reg offset : ℕ} {z : ACell C (ZMod p)} {strict : Bool} {bits W : ℕ} :
    Uses A (copyDecompose reprBits K cfg reg offset z strict bits W) := by
  refine Uses.copyAdvice.bind fun _ => ?_
  refine Uses.assert.bind fun _ => (enableRows_uses h).bind fun _ => Uses.unwrap.bind fun _ =>
    Uses.assert.bind fun _ => Uses.assert.bind fun _ => assignSums_uses.bind fun _ => ?_
  refine Uses.bind ?_ fun _ => Uses.pure _
  cases strict
  · exact Uses.pure _
  · exact Uses.constrainConstant

theorem assignWindows_uses {cfg : FullWidth.Config C S} {reg offset idx : ℕ} {ks : List ℕ} :
    Uses A (FullWidth.assignWindows cfg reg offset idx ks : M C S (ZMod p) _) := by
  induction ks generalizing idx with
  | nil => exact Uses.pure _
  | cons k ks ih => exact Uses.assignAdvice.bind fun _ => ih.bind fun _ => Uses.pure _

theorem full_uses {cfg : FullWidth.Config C S} (h : A cfg.qMulFixedFull)
    (h' : ∀ s ∈ cfg.super.selectors, A s) {scalar : ZMod q} {base : FixedPoint b} :
    Uses A (FullWidth.assign cfg scalar base) := by
  simp only [MulFixed.Config.selectors, List.mem_cons, List.not_mem_nil, or_false, forall_eq_or_imp,
    forall_eq] at h'
  exact (Uses.assignRegion fun _ => ((enableRows_uses h).bind fun _ => Uses.unwrap.bind fun _ =>
    Uses.assert.bind fun _ => assignWindows_uses).bind fun _ => Uses.unwrap.bind fun _ =>
      (inner_uses h'.2.2 h).bind fun _ => Uses.pure _).bind fun _ =>
    (Uses.assignRegion fun _ => add_uses h'.2.1).bind fun _ => Uses.pure _

theorem sumFirst_uses {cfg : MulFixed.Config C S} (h' : ∀ s ∈ cfg.selectors, A s)
    {alpha : ACell C (ZMod p)} {bits N : ℕ} {base : FixedPoint b} (reg : ℕ) :
    Uses A (do
      let zs ← copyDecompose 256 3 cfg.runningSum reg 0 alpha true bits N
      let ks ← unwrap (runningSumToWindows q (zs.map ACell.value))
      let (acc, mulB) ← assignRegionInner cfg N reg 0 ks base cfg.runningSum.qRangeCheck
      pure (zs, acc, mulB)) := by
  simp only [MulFixed.Config.selectors, List.mem_cons, List.not_mem_nil, or_false, forall_eq_or_imp,
    forall_eq] at h'
  exact (copyDecompose_uses h'.1).bind fun _ => Uses.unwrap.bind fun _ => (inner_uses h'.2.2 h'.1).bind
    fun _ => Uses.pure _

theorem short_uses {cfg : Short.Config C S} (h : A cfg.qMulFixedShort)
    (h' : ∀ s ∈ cfg.super.selectors, A s) {magnitude sign : ACell C (ZMod p)} {base : FixedPoint b} :
    Uses A (Short.assign q cfg magnitude sign base) :=
  (Uses.assignRegion (sumFirst_uses h')).bind fun _ => Uses.unwrap.bind fun _ =>
    (Uses.assignRegion fun _ => (add_uses (h' _ (by simp [MulFixed.Config.selectors]))).bind fun _ =>
      Uses.copyAdvice.bind fun _ => Uses.copyAdvice.bind fun _ =>
    (Uses.enable h).bind fun _ => Uses.assignAdvice.bind fun _ => Uses.pure _).bind fun _ => Uses.pure _

theorem sign_uses {cfg : Short.Config C S} (h : A cfg.qMulFixedShort) {sign : ACell C (ZMod p)}
    {point : EccPoint C (ZMod p)} : Uses A (Short.assignScalarSign cfg sign point) :=
  Uses.assignRegion fun _ => (Uses.enable h).bind fun _ => Uses.assignAdviceFromConstant.bind fun _ =>
    Uses.copyAdvice.bind fun _ => Uses.copyAdvice.bind fun _ => Uses.assignAdvice.bind fun _ =>
      Uses.pure _

theorem base_uses {cfg : BaseFieldElem.Config C S} (h : A cfg.qMulFixedBaseField)
    (h' : ∀ s ∈ cfg.super.selectors, A s) (h1 : A cfg.lookup.qLookup) (h2 : A cfg.lookup.qRunning)
    {scalar : ACell C (ZMod p)} {base : FixedPoint b} :
    Uses A (BaseFieldElem.assign q cfg scalar base) :=
  (Uses.assignRegion (sumFirst_uses h')).bind fun _ =>
    (Uses.assignRegion fun _ => add_uses (h' _ (by simp [MulFixed.Config.selectors]))).bind fun _ =>
    Uses.unwrap.bind fun _ => Uses.unwrap.bind fun _ => Uses.unwrap.bind fun _ =>
      Uses.unwrap.bind fun _ => (Uses.assignRegion fun _ => Uses.assignAdvice.bind fun _ =>
        rangeCheck_uses h1 h2).bind fun _ => Uses.unwrap.bind fun _ =>
        Uses.unwrap.bind fun _ => (Uses.assignRegion fun _ =>
          (Uses.enable h).bind fun _ => Uses.copyAdvice.bind fun _ => Uses.copyAdvice.bind fun _ =>
            Uses.copyAdvice.bind fun _ => Uses.unwrap.bind fun _ => Uses.assignAdvice.bind fun _ =>
            Uses.unwrap.bind fun _ => Uses.assignAdvice.bind fun _ => Uses.copyAdvice.bind fun _ =>
            Uses.copyAdvice.bind fun _ => Uses.copyAdvice.bind fun _ => Uses.pure _).bind fun _ =>
          Uses.pure _

end Verif.EccApi
