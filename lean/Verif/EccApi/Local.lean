import Verif.EccApi.Model
import Verif.MulFixed.Local
import Verif.Mul.Model

/-!
# Every call stays in the regions it creates
-/

namespace Verif.Mul

open Verif.Region Verif.Ecc Verif.Utilities Verif.RunningSum Verif.MulFixed

variable {C S F : Type} {p : ℕ} [Fact p.Prime]

section

variable [Field F] {reg : ℕ}

theorem Incomplete.loop_acts {cfg : Incomplete.Config C S} {xp yp : F} {row : ℕ} {xa : ACell C F}
    {ya : F} {z : ACell C F} {ks : List Bool} :
    Acts reg (Incomplete.loop cfg reg xp yp row xa ya z ks) := by
  induction ks generalizing row xa ya z with
  | nil => exact Acts.pure _
  | cons k ks ih =>
    exact Acts.assignAdvice.bind fun _ => Acts.assignAdvice.bind fun _ =>
      Acts.assignAdvice.bind fun _ => Acts.assignAdvice.bind fun _ => Acts.assignAdvice.bind fun _ =>
        Acts.assignAdvice.bind fun _ => ih.bind fun _ => Acts.pure _

theorem Complete.enableLoop_acts {cfg : Complete.Config C S} {offset n : ℕ} :
    Acts reg (Complete.enableLoop cfg reg offset n : M C S F Unit) := by
  induction n with
  | zero => exact Acts.pure _
  | succ n ih => exact ih.bind fun _ => Acts.enable

variable [DecidableEq F]

theorem Incomplete.doubleAndAdd_acts {numBits : ℕ} {cfg : Incomplete.Config C S} {offset : ℕ}
    {base : EccPoint C F} {bits : List Bool} {acc : EccPoint C F} {z : ACell C F} :
    Acts reg (Incomplete.doubleAndAdd numBits cfg reg offset base bits acc z) :=
  Acts.assert.bind fun _ => Acts.assert.bind fun _ => Acts.enable.bind fun _ =>
    enableRows_acts.bind fun _ => Acts.enable.bind fun _ => Acts.copyAdvice.bind fun _ =>
      Acts.copyAdvice.bind fun _ => Acts.copyAdvice.bind fun _ => Incomplete.loop_acts.bind fun _ =>
        Acts.assignAdvice.bind fun _ => Acts.pure _

theorem Complete.loop_acts {cfg : Complete.Config C S} {base : EccPoint C F} {row : ℕ}
    {acc : EccPoint C F} {z : ACell C F} {ks : List Bool} :
    Acts reg (Complete.loop cfg reg base row acc z ks) := by
  induction ks generalizing row acc z with
  | nil => exact Acts.pure _
  | cons k ks ih =>
    exact Acts.assignAdvice.bind fun _ => Acts.copyAdvice.bind fun _ => Acts.assignAdvice.bind fun _ =>
      add_acts.bind fun _ => add_acts.bind fun _ => ih.bind fun _ => Acts.pure _

theorem Complete.assignRegion_acts {len : ℕ} {cfg : Complete.Config C S} {offset : ℕ}
    {bits : List Bool} {base acc : EccPoint C F} {z : ACell C F} :
    Acts reg (Complete.assignRegion len cfg reg offset bits base acc z) :=
  Acts.assert.bind fun _ => Complete.enableLoop_acts.bind fun _ => Acts.copyAdvice.bind fun _ =>
    Complete.loop_acts

theorem processLsb_acts {cfg : Config C S} {offset : ℕ} {base acc : EccPoint C F} {z1 : ACell C F}
    {lsb : Bool} : Acts reg (processLsb cfg reg offset base acc z1 lsb) :=
  Acts.enable.bind fun _ => Acts.assignAdvice.bind fun _ => Acts.copyAdvice.bind fun _ =>
    Acts.copyAdvice.bind fun _ => Acts.assignAdvice.bind fun _ => Acts.assignAdvice.bind fun _ =>
      add_acts.bind fun _ => Acts.pure _

end

theorem copyCheck_local {reprBits capacity K : ℕ} {cfg : LookupRange.Config C S}
    {element : ACell C (ZMod p)} {numWords : ℕ} {strict : Bool} :
    Local (LookupRange.copyCheck reprBits capacity K cfg element numWords strict) := by
  refine Local.assignRegion fun _ => Acts.copyAdvice.bind fun _ => ?_
  refine Acts.assert.bind fun _ => Acts.assert.bind fun _ => Acts.unwrap.bind fun _ =>
    Acts.assert.bind fun _ => Acts.assert.bind fun _ => rangeLoop_acts.bind fun _ => ?_
  refine Acts.bind ?_ fun _ => Acts.pure _
  cases strict
  · exact Acts.pure _
  · exact Acts.constrainConstant

theorem Overflow.overflowCheck_local {cfg : Overflow.Config C S} {alpha : ACell C (ZMod p)}
    {zs : List (ACell C (ZMod p))} : Local (Overflow.overflowCheck cfg alpha zs) :=
  Local.unwrap.bind fun _ => (Local.assignRegion fun _ => Acts.assignAdvice).bind fun _ =>
    (Local.assert.bind fun _ => copyCheck_local.bind fun _ => Local.unwrap).bind fun _ =>
      Local.assignRegion fun _ => Acts.enable.bind fun _ => Acts.unwrap.bind fun _ =>
        Acts.copyAdvice.bind fun _ => Acts.unwrap.bind fun _ => Acts.copyAdvice.bind fun _ =>
          Acts.assignAdvice.bind fun _ => Acts.copyAdvice.bind fun _ => Acts.copyAdvice.bind fun _ =>
            Acts.copyAdvice.bind fun _ => Acts.copyAdvice.bind fun _ => Acts.pure _

theorem mulRegion_acts {cfg : Config C S} {alpha : ACell C (ZMod p)}
    {base baseInc : EccPoint C (ZMod p)} {reg : ℕ} : Acts reg (mulRegion cfg alpha base baseInc reg) :=
  Acts.unwrap.bind fun _ => add_acts.bind fun _ => Acts.assignAdviceFromConstant.bind fun _ =>
    Incomplete.doubleAndAdd_acts.bind fun _ => Acts.unwrap.bind fun _ =>
      Incomplete.doubleAndAdd_acts.bind fun _ => Acts.assert.bind fun _ => Acts.unwrap.bind fun _ =>
        Complete.assignRegion_acts.bind fun _ => Acts.unwrap.bind fun _ => processLsb_acts.bind fun _ =>
          Acts.assert.bind fun _ => Acts.pure _

theorem assign_local (cfg : Config C S) (alpha : ACell C (ZMod p)) (base : EccPoint C (ZMod p)) :
    Local (assign cfg alpha base) :=
  (Local.assignRegion fun _ => mulRegion_acts).bind fun _ => Overflow.overflowCheck_local.bind fun _ =>
    Local.pure _

end Verif.Mul

namespace Verif.EccApi

open Verif.Region Verif.Ecc Verif.MulFixed

variable {C S : Type} {p q : ℕ} [Fact p.Prime] [Fact q.Prime] {b : ZMod p}

theorem Acts.assert' {F : Type} {reg : ℕ} {c : Prop} (d : Decidable c) :
    Acts reg (@Region.assert C S F c d) := Acts.assert

theorem Local.constrainEqual {F : Type} {x y : Cell C} :
    Local (Region.constrainEqual x y : M C S F Unit) := by
  intro n r n' ops h
  cases h
  exact ⟨le_refl _, fun op hm r hr => by
    simp only [List.mem_singleton] at hm; subst hm; simp [Op.reg] at hr⟩

theorem mul_local (fix : Bool) (cfg : Mul.Config C S) (scalar : ACell C (ZMod p))
    (base : EccPoint C (ZMod p)) : Local (mul fix cfg scalar base) := by
  intro n
  refine (?_ : Local (do
    let r ← Mul.assign cfg scalar base
    if fix then
      Region.constrainEqual ⟨n, cfg.hi.da.xP, 2⟩ base.x.cell
      Region.constrainEqual ⟨n, cfg.hi.yP, 2⟩ base.y.cell
      Region.constrainEqual ⟨n, cfg.lo.da.xP, 2⟩ base.x.cell
      Region.constrainEqual ⟨n, cfg.lo.yP, 2⟩ base.y.cell
    pure r : M C S (ZMod p) (EccPoint C (ZMod p)))) n
  refine (Mul.assign_local _ _ _).bind fun _ => ?_
  cases fix
  · exact Local.pure _
  · exact Local.constrainEqual.bind fun _ => Local.constrainEqual.bind fun _ =>
      Local.constrainEqual.bind fun _ => Local.constrainEqual.bind fun _ => Local.pure _

/-- A call stays in the regions it creates. -/
theorem call_local (fix : Bool) (cfg : Config C S) (e : Env C p q) (c : Call b q) :
    Local (call fix cfg e c) := by
  cases c with
  | loadPrivate col v =>
    exact (Local.assignRegion fun _ => Acts.assignAdvice).bind fun _ => Local.pure _
  | newPoint P =>
    exact (Local.assignRegion fun _ => Acts.enable.bind fun _ => Acts.assignAdvice.bind fun _ =>
      Acts.assignAdvice.bind fun _ => Acts.pure _).bind fun _ => Local.pure _
  | newConstant P =>
    exact (Local.assignRegion fun _ => Acts.enable.bind fun _ =>
      Acts.assignAdviceFromConstant.bind fun _ => Acts.assignAdviceFromConstant.bind fun _ =>
        Acts.pure _).bind fun _ => Local.pure _
  | newNonId P =>
    exact (Local.assignRegion fun _ => Acts.enable.bind fun _ => (Acts.assert' _).bind
      fun _ => Acts.assignAdvice.bind fun _ => Acts.assignAdvice.bind fun _ => Acts.pure _).bind fun _ =>
        Local.pure _
  | constrainEqual x y =>
    exact Local.unwrap.bind fun _ => Local.unwrap.bind fun _ => (Local.assignRegion fun _ =>
      Acts.constrainEqual.bind fun _ => Acts.constrainEqual).bind fun _ => Local.pure _
  | extractP x => exact Local.unwrap.bind fun _ => Local.pure _
  | add x y =>
    exact Local.unwrap.bind fun _ => Local.unwrap.bind fun _ =>
      (Local.assignRegion fun _ => add_acts).bind fun _ => Local.pure _
  | addIncomplete i j =>
    exact Local.unwrap.bind fun _ => Local.unwrap.bind fun _ =>
      (Local.assignRegion fun _ => addIncomplete_acts).bind fun _ => Local.pure _
  | mulSign i sign =>
    exact Local.unwrap.bind fun _ => Local.unwrap.bind fun _ =>
      (Short.assignScalarSign_local _ _ _).bind fun _ => Local.pure _
  | newScalarVar v => exact Local.unwrap
  | scalarVarFromBase v => exact Local.unwrap.bind fun _ => Local.pure _
  | mul i scalar =>
    exact Local.unwrap.bind fun _ => Local.unwrap.bind fun _ => (mul_local _ _ _ _).bind fun _ =>
      Local.pure _
  | newScalarFixed v => exact Local.pure _
  | mulFixed base scalar =>
    exact Local.unwrap.bind fun _ => Local.assert.bind fun _ =>
      (FullWidth.assign_local _ _ _).bind fun _ => Local.pure _
  | newScalarFixedShort m s => exact Local.unwrap.bind fun _ => Local.unwrap.bind fun _ => Local.pure _
  | mulFixedShort base scalar =>
    exact Local.unwrap.bind fun _ => Local.assert.bind fun _ =>
      (Short.assign_local _ _ _ _).bind fun _ => Local.pure _
  | mulFixedBaseField base v =>
    exact Local.unwrap.bind fun _ => (BaseFieldElem.assign_local _ _ _).bind fun _ => Local.pure _

theorem run_local (fix : Bool) (cfg : Config C S) (cs : List (Call b q)) (e : Env C p q) :
    Local (run fix cfg cs e) := by
  induction cs generalizing e with
  | nil => exact Local.pure _
  | cons c cs ih => exact (call_local fix cfg e c).bind fun _ => ih _

end Verif.EccApi
