import Verif.Region.Local
import Verif.Sinsemilla.Model
import Verif.CondSwap.Model
import Verif.LookupRange.Props

/-!
# The chips used by the Merkle chip stay in their regions
-/

namespace Verif.Region

variable {C S F : Type}

/-- A lookup holds in a region of a circuit if it does in the part that creates the region. -/
theorem PartOf.lookup [Field F] {ops tot : List (Op C S F)} {n n' reg : ℕ} (h : PartOf ops tot n n')
    (h1 : n ≤ reg) (h2 : reg < n') (l : LookupArg C S F) (G : Grid C F) :
    SatLookup l G tot reg ↔ SatLookup l G ops reg :=
  LookupRange.SatLookup.congr fun s row => ⟨h.own s reg row h1 h2, h.sub _⟩

end Verif.Region

namespace Verif.RunningSum

open Verif.Region

variable {C S F : Type}

theorem enableRows_acts {s : S} {reg offset n : ℕ} :
    Acts reg (enableRows s reg offset n : M C S F Unit) := by
  induction n with
  | zero => exact Acts.pure _
  | succ n ih => exact ih.bind fun _ => Acts.enable

theorem assignSums_acts [Field F] {reg : ℕ} {col : C} {inv : F} {row : ℕ} {z : ACell C F}
    {ws : List F} : Acts reg (assignSums reg col inv row z ws : M C S F _) := by
  induction ws generalizing row z with
  | nil => exact Acts.pure _
  | cons w ws ih =>
    exact Acts.assignAdvice.bind fun _ => ih.bind fun _ => Acts.pure _

end Verif.RunningSum

namespace Verif.LookupRange

open Verif.Region

variable {C S : Type} {p : ℕ} [Fact p.Prime]

theorem shortRangeCheckBase_acts {K : ℕ} {cfg : Config C S} {reg : ℕ} {element : ACell C (ZMod p)}
    {numBits : ℕ} : Acts reg (shortRangeCheckBase K cfg reg element numBits) :=
  Acts.enable.bind fun _ => Acts.enable.bind fun _ => Acts.enable.bind fun _ =>
    Acts.assignAdvice.bind fun _ => Acts.assert.bind fun _ =>
      Acts.assignAdviceFromConstant.bind fun _ => Acts.pure _

theorem shortRangeCheck_acts {K : ℕ} {cfg : Config C S} {reg : ℕ} {element : ACell C (ZMod p)}
    {numBits : ℕ} : Acts reg (shortRangeCheck K cfg reg element numBits) := by
  unfold shortRangeCheck
  split
  · exact shortRangeCheckBase_acts
  · split_ifs
    · exact Acts.enable.bind fun _ => Acts.enable
    · exact Acts.enable.bind fun _ => Acts.enable
    · exact shortRangeCheckBase_acts

theorem witnessShortCheck_local (K : ℕ) (cfg : Config C S) (value : ZMod p) (numBits : ℕ) :
    Local (witnessShortCheck K cfg value numBits) :=
  Local.assert.bind fun _ => Local.assignRegion fun _ =>
    Acts.assignAdvice.bind fun _ => (shortRangeCheck_acts).bind fun _ => Acts.pure _

end Verif.LookupRange

namespace Verif.CondSwap

open Verif.Region

theorem swap_local {C S F : Type} [Field F] (cfg : Config C S) (pair : ACell C F × F) (sw : Bool) :
    Local (swap cfg pair sw) :=
  Local.assignRegion fun _ => Acts.enable.bind fun _ => Acts.copyAdvice.bind fun _ =>
    Acts.assignAdvice.bind fun _ => Acts.assignAdvice.bind fun _ => Acts.assignAdvice.bind fun _ =>
      Acts.assignAdvice.bind fun _ => Acts.pure _

end Verif.CondSwap

namespace Verif.Sinsemilla

open Verif.Region Verif.Ecc

variable {C S : Type} {p : ℕ} [Fact p.Prime] {b : ZMod p}

theorem fixRows_acts {F : Type} [Field F] {reg : ℕ} {col : C} {offset : ℕ} {v : F} {n : ℕ} :
    Acts reg (fixRows reg col offset v n : M C S F Unit) := by
  induction n with
  | zero => exact Acts.pure _
  | succ n ih => exact ih.bind fun _ => Acts.assignFixed.bind fun _ => Acts.pure _

theorem hashRows_acts {F : Type} [Field F] {cfg : Config C S} {reg row : ℕ} {xa : ACell C F} {ya : F}
    {gs : List (F × F)} : Acts reg (hashRows cfg reg row xa ya gs) := by
  induction gs generalizing row xa ya with
  | nil => exact Acts.pure _
  | cons g gs ih =>
    exact Acts.assignAdvice.bind fun _ => Acts.assignAdvice.bind fun _ =>
      Acts.assignAdvice.bind fun _ => Acts.assignAdvice.bind fun _ => ih

theorem hashPiece_acts {reprBits K : ℕ} {gens : ℕ → ZMod p × ZMod p} {cfg : Config C S}
    {reg offset : ℕ} {piece : Piece C (ZMod p)} {xa : ACell C (ZMod p)} {ya : ZMod p} {final : Bool} :
    Acts reg (hashPiece reprBits K gens cfg reg offset piece xa ya final) :=
  (RunningSum.enableRows_acts).bind fun _ => Acts.assert.bind fun _ =>
    (fixRows_acts).bind fun _ => Acts.assignFixed.bind fun _ => Acts.assert.bind fun _ =>
      Acts.assert.bind fun _ => Acts.copyAdvice.bind fun _ =>
        (RunningSum.assignSums_acts).bind fun _ => (hashRows_acts).bind fun _ => Acts.pure _

theorem hashPieces_acts {reprBits K : ℕ} {gens : ℕ → ZMod p × ZMod p} {cfg : Config C S}
    {reg offset : ℕ} {message : List (Piece C (ZMod p))} {xa : ACell C (ZMod p)} {ya : ZMod p} :
    Acts reg (hashPieces reprBits K gens cfg reg offset message xa ya) := by
  induction message generalizing offset xa ya with
  | nil => exact Acts.pure _
  | cons P rest ih => exact (hashPiece_acts).bind fun _ => ih.bind fun _ => Acts.pure _

theorem hashFrom_acts {reprBits K : ℕ} {gens : ℕ → ZMod p × ZMod p} {cfg : Config C S} {reg : ℕ}
    {message : List (Piece C (ZMod p))} {init : ℕ × ACell C (ZMod p) × ZMod p} :
    Acts reg (hashFrom reprBits K gens cfg reg message init) :=
  ((hashPieces_acts).bind fun _ => Acts.assignAdvice.bind fun _ => Acts.assignAdvice.bind fun _ =>
    Acts.assignAdvice.bind fun _ => Acts.pure _).bind fun _ => Acts.assert.bind fun _ => Acts.pure _

theorem publicInit_acts {cfg : Config C S} {reg : ℕ} {Q : Pt b} : Acts reg (publicInit cfg reg Q) := by
  refine Acts.assert.bind fun _ => ?_
  dsimp only
  split_ifs
  · exact Acts.enable.bind fun _ => Acts.assignAdviceFromConstant.bind fun _ =>
      Acts.assignAdviceFromConstant.bind fun _ => Acts.pure _
  · exact Acts.enable.bind fun _ => Acts.assignFixed.bind fun _ =>
      Acts.assignAdviceFromConstant.bind fun _ => Acts.pure _

theorem hashToPoint_local (reprBits K : ℕ) (gens : ℕ → ZMod p × ZMod p) (cfg : Config C S)
    (Q : Pt b) (message : List (Piece C (ZMod p))) :
    Local (hashToPoint reprBits K gens cfg Q message) :=
  Local.assignRegion fun _ => (publicInit_acts).bind fun _ => hashFrom_acts

theorem hashToPointPrivate_local (reprBits K : ℕ) (gens : ℕ → ZMod p × ZMod p) (cfg : Config C S)
    (Q : EccPoint C (ZMod p)) (message : List (Piece C (ZMod p))) :
    Local (hashToPointPrivate reprBits K gens cfg Q message) :=
  Local.assert.bind fun _ => Local.assignRegion fun _ =>
    (Acts.assert.bind fun _ => Acts.enable.bind fun _ => Acts.copyAdvice.bind fun _ =>
      Acts.copyAdvice.bind fun _ => Acts.pure _).bind fun _ => hashFrom_acts

theorem witnessMessagePiece_local (numBits K : ℕ) (cfg : Config C S) (value : ZMod p)
    (numWords : ℕ) : Local (witnessMessagePiece numBits K cfg value numWords) :=
  (Local.assignRegion fun _ => Acts.assignAdvice).bind fun _ => Local.assert.bind fun _ =>
    Local.pure _

end Verif.Sinsemilla
