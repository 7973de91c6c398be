import Verif.EccApi.Model
import Verif.MulFixed.Inner

/-!
# What a circuit made of the gadget's calls computes

The calls on points of the curve and on field elements, without cells, regions, gates or witnesses.
-/

namespace Verif.EccApi

open Verif.Ecc Verif.MulFixed

variable {p q : ℕ} [Fact p.Prime] {b : ZMod p}

/-- The values behind the handles.  A `ScalarFixed` stands for a number once it has been used. -/
structure Vals (b : ZMod p) where
  points : List (Pt b) := []
  nonIds : List (Pt b) := []
  vars : List (ZMod p) := []
  scalarVars : List (ZMod p) := []
  scalarsFixed : List (Option ℕ) := []
  scalarsShort : List (ZMod p × ZMod p) := []

def Vals.arg (v : Vals b) : Arg → Option (Pt b)
  | .point i => v.points[i]?
  | .nonId i => v.nonIds[i]?

/-- What one call means.  Where the prover chooses, there is a step for each choice. -/
inductive Step : Vals b → Call b q → Vals b → Prop
  | loadPrivate {v col x} (a : ZMod p) : Step v (.loadPrivate col x) { v with vars := v.vars ++ [a] }
  | newPoint {v P} (P' : Pt b) : Step v (.newPoint P) { v with points := v.points ++ [P'] }
  | newConstant {v P} : Step v (.newConstant P) { v with points := v.points ++ [P] }
  | newNonId {v P} {P' : Pt b} (h : P' ≠ 0) :
    Step v (.newNonId P) { v with nonIds := v.nonIds ++ [P'] }
  | constrainEqual {v x y P} (hx : v.arg x = some P) (hy : v.arg y = some P) :
    Step v (.constrainEqual x y) v
  | extractP {v x P} (hx : v.arg x = some P) :
    Step v (.extractP x) { v with vars := v.vars ++ [(enc P).1] }
  | add {v x y P Q} (hx : v.arg x = some P) (hy : v.arg y = some Q) :
    Step v (.add x y) { v with points := v.points ++ [P + Q] }
  | addIncomplete {v i j P Q} (hx : v.nonIds[i]? = some P) (hy : v.nonIds[j]? = some Q)
    (h1 : P ≠ Q) (h2 : P ≠ -Q) :
    Step v (.addIncomplete i j) { v with nonIds := v.nonIds ++ [P + Q] }
  | mulSignPos {v i j P} (hx : v.points[i]? = some P) (hs : v.vars[j]? = some 1) :
    Step v (.mulSign i j) { v with points := v.points ++ [P] }
  | mulSignNeg {v i j P} (hx : v.points[i]? = some P) (hs : v.vars[j]? = some (-1)) :
    Step v (.mulSign i j) { v with points := v.points ++ [-P] }
  | scalarVarFromBase {v i a} (h : v.vars[i]? = some a) :
    Step v (.scalarVarFromBase i) { v with scalarVars := v.scalarVars ++ [a] }
  | mul {v i j P k} (hx : v.nonIds[i]? = some P) (hk : v.scalarVars[j]? = some k) :
    Step v (.mul i j)
      { v with points := v.points ++ [k.val • P], scalarVars := v.scalarVars ++ [k] }
  | newScalarFixed {v x} : Step v (.newScalarFixed x) { v with scalarsFixed := v.scalarsFixed ++ [none] }
  | mulFixed {v base j} {k : ℕ} (hs : v.scalarsFixed[j]? = some none) (hk : k < 2 ^ 255) :
    Step v (.mulFixed base j)
      { v with
        points := v.points ++ [k • base.generator], scalarsFixed := v.scalarsFixed ++ [some k] }
  | newScalarFixedShort {v i j m s} (hm : v.vars[i]? = some m) (hs : v.vars[j]? = some s) :
    Step v (.newScalarFixedShort i j) { v with scalarsShort := v.scalarsShort ++ [(m, s)] }
  | mulFixedShortPos {v base j} {m : ℕ} (hs : v.scalarsShort[j]? = some ((m : ZMod p), 1))
    (hm : m < 2 ^ 64) :
    Step v (.mulFixedShort base j)
      { v with
        points := v.points ++ [m • base.generator],
        scalarsShort := v.scalarsShort ++ [((m : ZMod p), 1)] }
  | mulFixedShortNeg {v base j} {m : ℕ} (hs : v.scalarsShort[j]? = some ((m : ZMod p), -1))
    (hm : m < 2 ^ 64) :
    Step v (.mulFixedShort base j)
      { v with
        points := v.points ++ [-(m • base.generator)],
        scalarsShort := v.scalarsShort ++ [((m : ZMod p), -1)] }
  | mulFixedBaseField {v base i a} (h : v.vars[i]? = some a) :
    Step v (.mulFixedBaseField base i) { v with points := v.points ++ [a.val • base.generator] }

/-- What a list of calls means. -/
inductive Steps : Vals b → List (Call b q) → Vals b → Prop
  | nil {v} : Steps v [] v
  | cons {v v' v'' c cs} (h : Step v c v') (hs : Steps v' cs v'') : Steps v (c :: cs) v''

/-- The bases of fixed-base multiplications have the tables of mul_fixed.rs and a generator that is
not of small order (C44). -/
def Call.BaseOk : Call b q → Prop
  | .mulFixed base _ | .mulFixedBaseField base _ =>
    base.Valid numWindows ∧ Large base.generator numWindows
  | .mulFixedShort base _ => base.Valid numWindowsShort ∧ Large base.generator numWindowsShort
  | _ => True

/-- The call is a variable-base multiplication. -/
def Call.isMul : Call b q → Bool
  | .mul .. => true
  | _ => false

end Verif.EccApi
