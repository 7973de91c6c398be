import Verif.MulFixed.Model
import Verif.Ecc.Props
import Verif.Sinsemilla.Local

/-!
# The fixed-base multiplication stays in the regions it creates
-/

namespace Verif.MulFixed

open Verif.Region Verif.Ecc Verif.Utilities Verif.RunningSum

variable {C S : Type} {p q : ℕ} [Fact p.Prime] [Fact q.Prime] {b : ZMod p}

theorem add_acts {F : Type} [Field F] [DecidableEq F] {cfg : Add.Config C S} {x y : EccPoint C F}
    {reg offset : ℕ} : Acts reg (Add.assignRegion cfg x y reg offset) := by
  intro n r n' ops h
  rw [Add.run] at h
  cases h
  refine ⟨rfl, fun op hm r hr => ?_⟩
  simp only [Add.ops, List.mem_cons, List.not_mem_nil, or_false] at hm
  rcases hm with h | h | h | h | h | h | h | h | h | h | h | h | h | h | h | h <;> subst h <;>
    simp [Op.reg] at hr <;> exact hr.symm

theorem addIncomplete_acts {F : Type} [Field F] [DecidableEq F] {cfg : AddIncomplete.Config C S}
    {x y : EccPoint C F} {reg offset : ℕ} : Acts reg (AddIncomplete.assignRegion cfg x y reg offset) := by
  intro n r n' ops h
  by_cases he : AddIncomplete.Exceptional x y
  · rw [AddIncomplete.run_none reg offset n he] at h; cases h
  rw [AddIncomplete.run reg offset n he] at h
  cases h
  refine ⟨rfl, fun op hm r hr => ?_⟩
  simp only [AddIncomplete.ops, List.mem_cons, List.not_mem_nil, or_false] at hm
  rcases hm with h | h | h | h | h | h | h | h | h | h | h <;> subst h <;>
    simp [Op.reg] at hr <;> exact hr.symm

theorem assignRow_acts {cfg : Config C S} {reg row : ℕ} {cs : List (ZMod p)} {z : ℕ}
    {ks : List (Fin 8)} : Acts reg (assignRow cfg reg row cs z ks) := by
  induction ks with
  | nil => exact Acts.assignFixed.bind fun _ => Acts.pure _
  | cons k ks ih => exact Acts.unwrap.bind fun _ => Acts.assignFixed.bind fun _ => ih

theorem assignFixedConstants_acts {cfg : Config C S} {base : FixedPoint b} {toggle : S}
    {reg offset w n : ℕ} : Acts reg (assignFixedConstants cfg base toggle reg offset w n) := by
  induction n generalizing w with
  | zero => exact Acts.pure _
  | succ n ih =>
    exact Acts.enable.bind fun _ => Acts.unwrap.bind fun _ => Acts.unwrap.bind fun _ =>
      assignRow_acts.bind fun _ => ih

theorem processWindow_acts {cfg : Config C S} {N reg offset w k : ℕ} {s : ZMod q}
    {base : FixedPoint b} : Acts reg (processWindow cfg N reg offset w k s base) :=
  Acts.assert.bind fun _ => Acts.unwrap.bind fun _ => Acts.assert.bind fun _ =>
    Acts.assignAdvice.bind fun _ => Acts.assert.bind fun _ => Acts.assignAdvice.bind fun _ =>
      Acts.unwrap.bind fun _ => Acts.unwrap.bind fun _ => Acts.assignAdvice.bind fun _ => Acts.pure _

theorem addLoop_acts {cfg : Config C S} {N reg offset : ℕ} {base : FixedPoint b} {w : ℕ}
    {acc : EccPoint C (ZMod p)} {ks : List (ZMod q)} :
    Acts reg (addLoop cfg N reg offset base w acc ks) := by
  induction ks generalizing w acc with
  | nil => exact Acts.pure _
  | cons k ks ih => exact processWindow_acts.bind fun _ => addIncomplete_acts.bind fun _ => ih

theorem assignRegionInner_acts {cfg : Config C S} {N reg offset : ℕ} {windows : List (ZMod q)}
    {base : FixedPoint b} {toggle : S} :
    Acts reg (assignRegionInner cfg N reg offset windows base toggle) :=
  Acts.assert.bind fun _ => assignFixedConstants_acts.bind fun _ => Acts.unwrap.bind fun _ =>
    processWindow_acts.bind fun _ => Acts.assert.bind fun _ => addLoop_acts.bind fun _ =>
      Acts.unwrap.bind fun _ => processWindow_acts.bind fun _ => Acts.pure _

theorem decompose_acts {reprBits K : ℕ} {cfg : RunningSum.Config C S} {reg offset : ℕ}
    {z : ACell C (ZMod p)} {strict : Bool} {bits W : ℕ} :
    Acts reg (decompose reprBits K cfg reg offset z strict bits W) := by
  refine Acts.assert.bind fun _ => enableRows_acts.bind fun _ => Acts.unwrap.bind fun _ =>
    Acts.assert.bind fun _ => Acts.assert.bind fun _ => assignSums_acts.bind fun _ => ?_
  refine Acts.bind ?_ fun _ => Acts.pure _
  cases strict
  · exact Acts.pure _
  · exact Acts.constrainConstant

theorem copyDecompose_acts {reprBits K : ℕ} {cfg : RunningSum.Config C S} {reg offset : ℕ}
    {z : ACell C (ZMod p)} {strict : Bool} {bits W : ℕ} :
    Acts reg (copyDecompose reprBits K cfg reg offset z strict bits W) :=
  Acts.copyAdvice.bind fun _ => decompose_acts

theorem rangeLoop_acts {cfg : LookupRange.Config C S} {reg : ℕ} {inv : ZMod p} {idx : ℕ}
    {z : ACell C (ZMod p)} {ws : List (ZMod p)} :
    Acts reg (LookupRange.rangeLoop cfg reg inv idx z ws : M C S (ZMod p) _) := by
  induction ws generalizing idx z with
  | nil => exact Acts.pure _
  | cons w ws ih =>
    exact Acts.enable.bind fun _ => Acts.enable.bind fun _ => Acts.assignAdvice.bind fun _ =>
      ih.bind fun _ => Acts.pure _

theorem witnessCheck_local {reprBits capacity K : ℕ} {cfg : LookupRange.Config C S} {value : ZMod p}
    {numWords : ℕ} {strict : Bool} :
    Local (LookupRange.witnessCheck reprBits capacity K cfg value numWords strict) := by
  refine Local.assignRegion fun _ => Acts.assignAdvice.bind fun _ => ?_
  refine Acts.assert.bind fun _ => Acts.assert.bind fun _ => Acts.unwrap.bind fun _ =>
    Acts.assert.bind fun _ => Acts.assert.bind fun _ => rangeLoop_acts.bind fun _ => ?_
  refine Acts.bind ?_ fun _ => Acts.pure _
  cases strict
  · exact Acts.pure _
  · exact Acts.constrainConstant

namespace FullWidth

theorem assignWindows_acts {cfg : Config C S} {reg offset idx : ℕ} {ks : List ℕ} :
    Acts reg (assignWindows cfg reg offset idx ks : M C S (ZMod p) _) := by
  induction ks generalizing idx with
  | nil => exact Acts.pure _
  | cons k ks ih => exact Acts.assignAdvice.bind fun _ => ih.bind fun _ => Acts.pure _

theorem first_acts {cfg : Config C S} {scalar : ZMod q} {base : FixedPoint b} (reg : ℕ) :
    Acts reg (do
      let windows ← witness cfg reg 0 scalar
      let ks ← unwrap ((windows.map ACell.value).mapM (toScalar q))
      let (acc, mulB) ← assignRegionInner cfg.super numWindows reg 0 ks base cfg.qMulFixedFull
      pure (windows, acc, mulB)) :=
  (enableRows_acts.bind fun _ => Acts.unwrap.bind fun _ => Acts.assert.bind fun _ =>
    assignWindows_acts).bind fun _ => Acts.unwrap.bind fun _ => assignRegionInner_acts.bind fun _ =>
      Acts.pure _

theorem assign_local (cfg : Config C S) (scalar : ZMod q) (base : FixedPoint b) :
    Local (assign cfg scalar base) :=
  (Local.assignRegion first_acts).bind fun _ => (Local.assignRegion fun _ => add_acts).bind fun _ =>
    Local.pure _

end FullWidth

theorem sumFirst_acts {cfg : Config C S} {alpha : ACell C (ZMod p)} {bits N : ℕ}
    {base : FixedPoint b} (reg : ℕ) :
    Acts reg (do
      let zs ← copyDecompose 256 3 cfg.runningSum reg 0 alpha true bits N
      let ks ← unwrap (runningSumToWindows q (zs.map ACell.value))
      let (acc, mulB) ← assignRegionInner cfg N reg 0 ks base cfg.runningSum.qRangeCheck
      pure (zs, acc, mulB)) :=
  copyDecompose_acts.bind fun _ => Acts.unwrap.bind fun _ => assignRegionInner_acts.bind fun _ =>
    Acts.pure _

namespace Short

theorem lastWindow_acts {cfg : Config C S} {mulB acc : EccPoint C (ZMod p)}
    {sign z21 : ACell C (ZMod p)} (reg : ℕ) : Acts reg (lastWindow cfg mulB acc sign z21 reg) :=
  add_acts.bind fun _ => Acts.copyAdvice.bind fun _ => Acts.copyAdvice.bind fun _ =>
    Acts.enable.bind fun _ => Acts.assignAdvice.bind fun _ => Acts.pure _

theorem assign_local (cfg : Config C S) (magnitude sign : ACell C (ZMod p)) (base : FixedPoint b) :
    Local (assign q cfg magnitude sign base) :=
  (Local.assignRegion sumFirst_acts).bind fun _ => Local.unwrap.bind fun _ =>
    (Local.assignRegion lastWindow_acts).bind fun _ => Local.pure _

theorem assignScalarSign_local (cfg : Config C S) (sign : ACell C (ZMod p))
    (point : EccPoint C (ZMod p)) : Local (assignScalarSign cfg sign point) :=
  Local.assignRegion fun _ => Acts.enable.bind fun _ => Acts.assignAdviceFromConstant.bind fun _ =>
    Acts.copyAdvice.bind fun _ => Acts.copyAdvice.bind fun _ => Acts.assignAdvice.bind fun _ =>
      Acts.pure _

end Short

namespace BaseFieldElem

theorem canonRegion_acts {cfg : Config C S} {alpha z84 alpha0' z13 z44 z43 : ACell C (ZMod p)}
    (reg : ℕ) : Acts reg (canonRegion cfg alpha z84 alpha0' z13 z44 z43 reg) :=
  Acts.enable.bind fun _ => Acts.copyAdvice.bind fun _ => Acts.copyAdvice.bind fun _ =>
    Acts.copyAdvice.bind fun _ => Acts.unwrap.bind fun _ => Acts.assignAdvice.bind fun _ =>
      Acts.unwrap.bind fun _ => Acts.assignAdvice.bind fun _ => Acts.copyAdvice.bind fun _ =>
        Acts.copyAdvice.bind fun _ => Acts.copyAdvice.bind fun _ => Acts.pure _

theorem assign_local (cfg : Config C S) (scalar : ACell C (ZMod p)) (base : FixedPoint b) :
    Local (assign q cfg scalar base) :=
  (Local.assignRegion sumFirst_acts).bind fun _ => (Local.assignRegion fun _ => add_acts).bind fun _ =>
    Local.unwrap.bind fun _ => Local.unwrap.bind fun _ => Local.unwrap.bind fun _ =>
      Local.unwrap.bind fun _ => witnessCheck_local.bind fun _ => Local.unwrap.bind fun _ =>
        Local.unwrap.bind fun _ => (Local.assignRegion canonRegion_acts).bind fun _ => Local.pure _

end BaseFieldElem

end Verif.MulFixed
