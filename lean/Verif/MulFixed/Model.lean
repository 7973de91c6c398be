import Verif.Ecc.Model
import Verif.LookupRange.Model
import Verif.PolyArith.Model
import Mathlib.Algebra.Group.Even

/-!
# Model of fixed-base scalar multiplication: `halo2_gadgets/src/ecc/chip/mul_fixed.rs`,
`mul_fixed/*.rs` and `constants.rs`

The base field is `ZMod p`, the scalar field `ZMod q`.  `Assigned` values are replaced by the field
elements they evaluate to, and the `u`-values, given as byte strings in the code, by field elements.
-/

namespace Verif.MulFixed

open Verif.Region Verif.Ecc Verif.Utilities Verif.RunningSum

variable {C S : Type} {p q : ℕ} [Fact p.Prime] [Fact q.Prime] {b : ZMod p}

/-! ## Constants: `constants.rs` -/

/-- `NUM_WINDOWS`: constants.rs 17-19, with `pallas::Scalar::NUM_BITS = 255`. -/
def numWindows : ℕ := (255 + 3 - 1) / 3

/-- `L_SCALAR_SHORT`: constants.rs 25-27. -/
def lScalarShort : ℕ := 64

/-- `NUM_WINDOWS_SHORT`: constants.rs 21-23. -/
def numWindowsShort : ℕ := (lScalarShort + 3 - 1) / 3

/-- `T_P`: constants.rs 33-35. -/
def T_P : ℕ := 45560315531419706090280762371685220353

/-- The multiple of a point by a scalar: `base * scalar`. -/
def smul (s : ZMod q) (P : Pt b) : Pt b := s.val • P

/-- `[(k + 2) 8^w]`: constants.rs 50-52, mul_fixed.rs 354-355. -/
def lowerScalar (k : ZMod q) (w : ℕ) : ZMod q := (k + 2) * 8 ^ w

/-- `offset_acc`, `sum`: constants.rs 62-64, mul_fixed.rs 371-374. -/
def offsetAcc (numWindows : ℕ) : ZMod q :=
  (List.range (numWindows - 1)).foldl (fun acc w => acc + 2 ^ (3 * w + 1)) 0

/-- `[k 8^(n - 1) - sum]`: constants.rs 68-71, mul_fixed.rs 376-378. -/
def msbScalar (numWindows : ℕ) (k : ZMod q) : ZMod q := k * 8 ^ (numWindows - 1) - offsetAcc numWindows

variable (q) in
/-- `compute_window_table`: constants.rs 40-80; the subtraction panics for no windows. -/
def computeWindowTable (base : Pt b) (numWindows : ℕ) : Option (List (List (Pt b))) :=
  if numWindows = 0 then none else
  some (((List.range (numWindows - 1)).map fun w =>
      (List.range 8).map fun (k : ℕ) => smul (lowerScalar (k : ZMod q) w) base) ++
    [(List.range 8).map fun (k : ℕ) => smul (msbScalar numWindows (k : ZMod q)) base])

open Classical in
/-- `point.coordinates().unwrap()`: `coordinates` of pasta_curves (a dependency) has no value for
the identity. -/
noncomputable def coordinates (P : Pt b) : Option (ZMod p × ZMod p) :=
  if P = 0 then none else some (enc P)

variable (q) in
/-- `compute_lagrange_coeffs`: constants.rs 82-105. -/
noncomputable def computeLagrangeCoeffs (base : Pt b) (numWindows : ℕ) :
    Option (List (List (ZMod p))) :=
  (computeWindowTable q base numWindows).bind fun table =>
    table.mapM fun windowPoints =>
      (windowPoints.mapM fun P => (coordinates P).map Prod.fst).bind fun xs =>
        (PolyArith.lagrangeInterpolate ((List.range 8).map fun (i : ℕ) => (i : ZMod p)) xs).bind
          fun cs => if cs.length = 8 then some cs else none

open Classical in
/-- `sqrt` of the field (a dependency): some square root, if there is one. -/
noncomputable def sqrt (x : ZMod p) : Option (ZMod p) := if h : IsSquare x then some h.choose else none

/-- The search for `z` in `find_zs_and_us`: constants.rs 128-139, with the limit as a parameter. -/
noncomputable def findZAndUs (ys : List (ZMod p)) (limit : ℕ) : Option (ℕ × List (ZMod p)) :=
  (List.range limit).findSome? fun (z : ℕ) =>
    (ys.mapM fun y => if (sqrt (-y + (z : ZMod p))).isNone then sqrt (y + (z : ZMod p)) else none).map
      fun us => (z, us)

variable (q) in
/-- `find_zs_and_us`: constants.rs 107-147.  The outer option is a panic, the inner one the
result. -/
noncomputable def findZsAndUs (base : Pt b) (numWindows : ℕ) :
    Option (Option (List (ℕ × List (ZMod p)))) :=
  (computeWindowTable q base numWindows).bind fun (table : List (List (Pt b))) =>
    (table.mapM fun (windowPoints : List (Pt b)) => windowPoints.mapM fun P => (coordinates P).map Prod.snd).map
      fun yss => yss.mapM fun ys => findZAndUs ys (1000 * 2 ^ (2 * 8))

/-- `FixedPoint`: ecc/chip.rs 203-231, the values of the methods of one point. -/
structure FixedPoint (b : ZMod p) where
  generator : Pt b
  u : List (List (ZMod p))
  z : List ℕ
  lagrangeCoeffs : List (List (ZMod p))

/-! ## The common part: `mul_fixed.rs` -/

/-- `Config`: mul_fixed.rs 35-53. -/
structure Config (C S : Type) where
  runningSum : RunningSum.Config C S
  lagrangeCoeffs : Fin 8 → C
  fixedZ : C
  window : C
  u : C
  add : Add.Config C S
  addIncomplete : AddIncomplete.Config C S

/-- What `configure` guarantees of the columns: mul_fixed.rs 56-105, and ecc/chip.rs 268-303 for the
output columns of the two additions. -/
structure Config.Configured (cfg : Config C S) : Prop where
  z : cfg.runningSum.z = cfg.window
  xP : cfg.addIncomplete.xP = cfg.add.xP
  yP : cfg.addIncomplete.yP = cfg.add.yP
  windowX : cfg.window ≠ cfg.add.xQR
  windowY : cfg.window ≠ cfg.add.yQR
  uX : cfg.u ≠ cfg.add.xQR
  uY : cfg.u ≠ cfg.add.yQR

section

variable {F : Type} [Field F]

/-- `coords_check`: mul_fixed.rs 131-170. -/
def coordsCheck (b : F) (cfg : Config C S) (query : C → ℤ → F) (window : F) : List F :=
  let yP := query cfg.add.yP 0
  let xP := query cfg.add.xP 0
  let z := query cfg.fixedZ 0
  let u := query cfg.u 0
  let windowPow := fun (pow : ℕ) => (List.range pow).foldl (fun acc _ => acc * window) 1
  let interpolatedX := (List.finRange 8).foldl
    (fun acc (i : Fin 8) => acc + windowPow i.val * query (cfg.lagrangeCoeffs i) 0) 0
  [interpolatedX - xP, u ^ 2 - yP - z, yP ^ 2 - xP ^ 2 * xP - b]

/-- The gates of the shared configuration: `running_sum_coords_gate`, mul_fixed.rs 107-129, and those
of the chips it uses. -/
def Config.gates (b : F) (cfg : Config C S) : Gates C S F :=
  (cfg.runningSum.qRangeCheck, fun query =>
      coordsCheck b cfg query (query cfg.window 0 - query cfg.window 1 * 8)) ::
    (RunningSum.gates 3 cfg.runningSum ++ Add.gates cfg.add ++ AddIncomplete.gates cfg.addIncomplete)

end

/-- The columns of one row: mul_fixed.rs 219-252. -/
def assignRow (cfg : Config C S) (reg row : ℕ) (coeffs : List (ZMod p)) (z : ℕ) :
    List (Fin 8) → M C S (ZMod p) Unit
  | [] => do
    let _ ← assignFixed reg cfg.fixedZ row (z : ZMod p)
  | k :: ks => do
    let c ← unwrap coeffs[k.val]?
    let _ ← assignFixed reg (cfg.lagrangeCoeffs k) row c
    assignRow cfg reg row coeffs z ks

/-- `assign_fixed_constants`: mul_fixed.rs 196-256, from the window `w` on. -/
def assignFixedConstants (cfg : Config C S) (base : FixedPoint b) (toggle : S) (reg offset : ℕ) :
    (w fuel : ℕ) → M C S (ZMod p) Unit
  | _, 0 => pure ()
  | w, n + 1 => do
    enable toggle reg (w + offset)
    let coeffs ← unwrap base.lagrangeCoeffs[w]?
    let z ← unwrap base.z[w]?
    assignRow cfg reg (w + offset) coeffs z (List.finRange 8)
    assignFixedConstants cfg base toggle reg offset (w + 1) n

open Classical in
/-- `process_window`: mul_fixed.rs 258-310. -/
noncomputable def processWindow (cfg : Config C S) (numWindows reg offset w kUsize : ℕ)
    (windowScalar : ZMod q) (base : FixedPoint b) : M C S (ZMod p) (EccPoint C (ZMod p)) := do
  assert (base.u.length = numWindows)
  let (x, y) ← unwrap (coordinates (smul windowScalar base.generator))
  assert (x ≠ 0)
  let x ← assignAdvice reg cfg.add.xP (offset + w) x
  assert (y ≠ 0)
  let y ← assignAdvice reg cfg.add.yP (offset + w) y
  let us ← unwrap base.u[w]?
  let uVal ← unwrap us[kUsize]?
  let _ ← assignAdvice reg cfg.u (offset + w) uVal
  pure ⟨x, y⟩

/-- A window as a scalar, `from_repr(word.to_repr()).unwrap()`: mul_fixed.rs 432-433, 460-461. -/
def toScalar (q : ℕ) (word : ZMod p) : Option (ZMod q) :=
  if word.val < q then some (word.val : ZMod q) else none

/-- A window as an index, its lowest three bits: mul_fixed.rs 470-488. -/
def toUsize (k : ZMod q) : ℕ := chunkValue ((toLeBits 256 k).take 3)

/-- `running_sum_to_windows`: mul_fixed.rs 422-436. -/
def runningSumToWindows (q : ℕ) (zs : List (ZMod p)) : Option (List (ZMod q)) :=
  (List.zipWith (fun zCur zNext => zCur - zNext * 8) zs zs.tail).mapM (toScalar q)

/-- `process_lower_bits`: mul_fixed.rs 344-358. -/
noncomputable def processLowerBits (cfg : Config C S) (numWindows reg offset w : ℕ) (k : ZMod q)
    (base : FixedPoint b) : M C S (ZMod p) (EccPoint C (ZMod p)) :=
  processWindow cfg numWindows reg offset w (toUsize k) (lowerScalar k w) base

/-- `process_msb`: mul_fixed.rs 360-389. -/
noncomputable def processMsb (cfg : Config C S) (numWindows reg offset : ℕ) (k : ZMod q)
    (base : FixedPoint b) : M C S (ZMod p) (EccPoint C (ZMod p)) :=
  processWindow cfg numWindows reg offset (numWindows - 1) (toUsize k) (msbScalar numWindows k) base

/-- The loop of `add_incomplete`: mul_fixed.rs 327-352, from the window `w` on. -/
noncomputable def addLoop (cfg : Config C S) (numWindows reg offset : ℕ) (base : FixedPoint b) :
    (w : ℕ) → EccPoint C (ZMod p) → List (ZMod q) → M C S (ZMod p) (EccPoint C (ZMod p))
  | _, acc, [] => pure acc
  | w, acc, k :: ks => do
    let mulB ← processLowerBits cfg numWindows reg offset w k base
    let acc ← AddIncomplete.assignRegion cfg.addIncomplete mulB acc reg (offset + w)
    addLoop cfg numWindows reg offset base (w + 1) acc ks

/-- `assign_region_inner`: mul_fixed.rs 172-194, with `initialize_accumulator` 312-325 and
`add_incomplete` 327-352; `windows` are those of the scalar, `windows_field` 414-466. -/
noncomputable def assignRegionInner (cfg : Config C S) (numWindows reg offset : ℕ)
    (windows : List (ZMod q)) (base : FixedPoint b) (toggle : S) :
    M C S (ZMod p) (EccPoint C (ZMod p) × EccPoint C (ZMod p)) := do
  assert (base.lagrangeCoeffs.length = numWindows ∧ base.z.length = numWindows)
  assignFixedConstants cfg base toggle reg offset 0 numWindows
  let k0 ← unwrap windows[0]?
  let acc ← processLowerBits cfg numWindows reg offset 0 k0 base
  assert (windows.length = numWindows)
  let acc ← addLoop cfg numWindows reg offset base 1 acc ((windows.take (numWindows - 1)).drop 1)
  let k ← unwrap windows[numWindows - 1]?
  let mulB ← processMsb cfg numWindows reg offset k base
  pure (acc, mulB)

/-! ## Full-width scalars: `mul_fixed/full_width.rs` -/

namespace FullWidth

/-- `Config`: mul_fixed/full_width.rs 13-17. -/
structure Config (C S : Type) where
  qMulFixedFull : S
  super : MulFixed.Config C S

/-- `create_gate`: mul_fixed/full_width.rs 34-53, with the gates of the shared configuration. -/
def gates (b : ZMod p) (cfg : Config C S) : Gates C S (ZMod p) :=
  (cfg.qMulFixedFull, fun query => coordsCheck b cfg.super query (query cfg.super.window 0) ++
    [rangeCheck (query cfg.super.window 0) 8]) :: cfg.super.gates b

/-- The cells of the windows: mul_fixed/full_width.rs 99-113. -/
def assignWindows (cfg : Config C S) (reg offset : ℕ) : (idx : ℕ) → List ℕ →
    M C S (ZMod p) (List (ACell C (ZMod p)))
  | _, [] => pure []
  | idx, k :: ks => do
    let a ← assignAdvice reg cfg.super.window (offset + idx) (k : ZMod p)
    let rest ← assignWindows cfg reg offset (idx + 1) ks
    pure (a :: rest)

/-- `decompose_scalar_fixed`, `witness`: mul_fixed/full_width.rs 55-116. -/
def witness (cfg : Config C S) (reg offset : ℕ) (scalar : ZMod q) :
    M C S (ZMod p) (List (ACell C (ZMod p))) := do
  enableRows cfg.qMulFixedFull reg offset numWindows
  let words ← unwrap (decomposeWord 256 scalar 255 3)
  assert (words.length = numWindows)
  assignWindows cfg reg offset 0 words

/-- `assign`: mul_fixed/full_width.rs 118-176, for a scalar not yet witnessed (the other case is
`todo!`).  Returns the product and the windows. -/
noncomputable def assign (cfg : Config C S) (scalar : ZMod q) (base : FixedPoint b) :
    M C S (ZMod p) (EccPoint C (ZMod p) × List (ACell C (ZMod p))) := do
  let (windows, acc, mulB) ← assignRegion fun reg => do
    let windows ← witness cfg reg 0 scalar
    let ks ← unwrap ((windows.map ACell.value).mapM (toScalar q))
    let (acc, mulB) ← assignRegionInner cfg.super numWindows reg 0 ks base cfg.qMulFixedFull
    pure (windows, acc, mulB)
  let result ← assignRegion fun reg => Add.assignRegion cfg.super.add mulB acc reg 0
  pure (result, windows)

end FullWidth

/-! ## Short signed scalars: `mul_fixed/short.rs` -/

namespace Short

/-- `Config`: mul_fixed/short.rs 13-18. -/
structure Config (C S : Type) where
  qMulFixedShort : S
  super : MulFixed.Config C S

/-- The polynomials of the gate: mul_fixed/short.rs 46-66. -/
def polys (yP yA lastWindow sign : ZMod p) : List (ZMod p) :=
  [boolCheck lastWindow, sign ^ 2 - 1, (yP - yA) * (yP + yA), sign * yP - yA]

/-- `create_gate`: mul_fixed/short.rs 34-78, with the gates of the shared configuration. -/
def gates (b : ZMod p) (cfg : Config C S) : Gates C S (ZMod p) :=
  (cfg.qMulFixedShort, fun query => polys (query cfg.super.add.yP 0) (query cfg.super.add.yQR 0)
    (query cfg.super.u 0) (query cfg.super.window 0)) :: cfg.super.gates b

/-- The conditional negation of a `y`-coordinate: mul_fixed/short.rs 182-188, 279-285. -/
def signed (sign y : ZMod p) : ZMod p := if sign = -1 then -y else y

/-- The second region of `assign`: mul_fixed/short.rs 147-204. -/
def lastWindow (cfg : Config C S) (mulB acc : EccPoint C (ZMod p)) (sign z21 : ACell C (ZMod p))
    (reg : ℕ) : M C S (ZMod p) (EccPoint C (ZMod p)) := do
  let magnitudeMul ← Add.assignRegion cfg.super.add mulB acc reg 0
  let sign ← sign.copyAdvice reg cfg.super.window 1
  let _ ← z21.copyAdvice reg cfg.super.u 1
  enable cfg.qMulFixedShort reg 1
  let yVar ← assignAdvice reg cfg.super.add.yP 1 (signed sign.value magnitudeMul.y.value)
  pure ⟨magnitudeMul.x, yVar⟩

variable (q) in
/-- `assign`: mul_fixed/short.rs 109-241 (with `decompose` 80-107), for a scalar not yet decomposed
(the other case is `todo!`).  Returns the product and the running sum. -/
noncomputable def assign (cfg : Config C S) (magnitude sign : ACell C (ZMod p)) (base : FixedPoint b) :
    M C S (ZMod p) (EccPoint C (ZMod p) × List (ACell C (ZMod p))) := do
  let (zs, acc, mulB) ← assignRegion fun reg => do
    let zs ← copyDecompose 256 3 cfg.super.runningSum reg 0 magnitude true lScalarShort
      numWindowsShort
    let ks ← unwrap (runningSumToWindows q (zs.map ACell.value))
    let (acc, mulB) ← assignRegionInner cfg.super numWindowsShort reg 0 ks base
      cfg.super.runningSum.qRangeCheck
    pure (zs, acc, mulB)
  let z21 ← unwrap zs[21]?
  let result ← assignRegion fun reg => lastWindow cfg mulB acc sign z21 reg
  pure (result, zs)

/-- `assign_scalar_sign`: mul_fixed/short.rs 243-304. -/
def assignScalarSign (cfg : Config C S) (sign : ACell C (ZMod p)) (point : EccPoint C (ZMod p)) :
    M C S (ZMod p) (EccPoint C (ZMod p)) :=
  assignRegion fun reg => do
    enable cfg.qMulFixedShort reg 0
    let _ ← assignAdviceFromConstant reg cfg.super.u 0 0
    let _ ← sign.copyAdvice reg cfg.super.window 0
    let _ ← point.y.copyAdvice reg cfg.super.add.yQR 0
    let signedY ← assignAdvice reg cfg.super.add.yP 0 (signed sign.value point.y.value)
    pure ⟨point.x, signedY⟩

end Short

/-! ## Base field elements: `mul_fixed/base_field_elem.rs` -/

namespace BaseFieldElem

/-- `Config`: mul_fixed/base_field_elem.rs 20-29. -/
structure Config (C S : Type) where
  qMulFixedBaseField : S
  canonAdvices : Fin 3 → C
  lookup : LookupRange.Config C S
  super : MulFixed.Config C S

/-- The polynomials of the gate: mul_fixed/base_field_elem.rs 69-159. -/
def polys (alpha z84 alpha1 alpha2 alpha0' z13 z44 z43 : ZMod p) : List (ZMod p) :=
  let alpha0 := alpha - z84 * (((2 ^ 126 : ℕ) : ZMod p)) ^ 2
  let alpha0Hi120 := z44 - z84 * (((2 ^ 60 : ℕ) : ZMod p)) ^ 2
  let a43 := z43 - z44 * 8
  [alpha2 * alpha1, alpha2 * alpha0Hi120, alpha2 * boolCheck a43, alpha2 * z13,
   rangeCheck alpha1 (2 ^ 2), boolCheck alpha2, z84 - (alpha1 + alpha2 * 4),
   alpha0' - (alpha0 + (((2 ^ 65 : ℕ) : ZMod p)) ^ 2 - (T_P : ZMod p))]

/-- `create_gate`: mul_fixed/base_field_elem.rs 62-161, with the gates of the other configurations. -/
def gates (b : ZMod p) (cfg : Config C S) : Gates C S (ZMod p) :=
  (cfg.qMulFixedBaseField, fun query =>
    polys (query (cfg.canonAdvices 0) (-1)) (query (cfg.canonAdvices 2) (-1))
      (query (cfg.canonAdvices 1) 0) (query (cfg.canonAdvices 2) 0) (query (cfg.canonAdvices 0) 0)
      (query (cfg.canonAdvices 0) 1) (query (cfg.canonAdvices 1) 1) (query (cfg.canonAdvices 2) 1))
    :: (LookupRange.gates 10 cfg.lookup ++ cfg.super.gates b)

/-- The region of the canonicity checks: mul_fixed/base_field_elem.rs 287-371. -/
def canonRegion (cfg : Config C S) (alpha z84 alpha0' z13 z44 z43 : ACell C (ZMod p)) (reg : ℕ) :
    M C S (ZMod p) Unit := do
  enable cfg.qMulFixedBaseField reg 1
  let _ ← alpha.copyAdvice reg (cfg.canonAdvices 0) 0
  let _ ← z84.copyAdvice reg (cfg.canonAdvices 2) 0
  let _ ← alpha0'.copyAdvice reg (cfg.canonAdvices 0) 1
  let alpha1 ← unwrap (bitrangeSubset 255 256 alpha.value 252 254)
  let _ ← assignAdvice reg (cfg.canonAdvices 1) 1 alpha1
  let alpha2 ← unwrap (bitrangeSubset 255 256 alpha.value 254 255)
  let _ ← assignAdvice reg (cfg.canonAdvices 2) 1 alpha2
  let _ ← z13.copyAdvice reg (cfg.canonAdvices 0) 2
  let _ ← z44.copyAdvice reg (cfg.canonAdvices 1) 2
  let _ ← z43.copyAdvice reg (cfg.canonAdvices 2) 2
  pure ()

variable (q) in
/-- `assign`: mul_fixed/base_field_elem.rs 163-376. -/
noncomputable def assign (cfg : Config C S) (scalar : ACell C (ZMod p)) (base : FixedPoint b) :
    M C S (ZMod p) (EccPoint C (ZMod p)) := do
  let (zs, acc, mulB) ← assignRegion fun reg => do
    let zs ← copyDecompose 256 3 cfg.super.runningSum reg 0 scalar true 255 numWindows
    let ks ← unwrap (runningSumToWindows q (zs.map ACell.value))
    let (acc, mulB) ← assignRegionInner cfg.super numWindows reg 0 ks base
      cfg.super.runningSum.qRangeCheck
    pure (zs, acc, mulB)
  let result ← assignRegion fun reg => Add.assignRegion cfg.super.add mulB acc reg 0
  let alpha ← unwrap zs[0]?
  let z43 ← unwrap zs[43]?
  let z44 ← unwrap zs[44]?
  let z84 ← unwrap zs[84]?
  let alpha0 := alpha.value - z84.value * (((2 ^ 126 : ℕ) : ZMod p)) ^ 2
  let alpha0' := alpha0 + (((2 ^ 65 : ℕ) : ZMod p)) ^ 2 - (T_P : ZMod p)
  let ws ← LookupRange.witnessCheck 256 254 10 cfg.lookup alpha0' 13 false
  let alpha0' ← unwrap ws[0]?
  let z13 ← unwrap ws[13]?
  assignRegion fun reg => canonRegion cfg alpha z84 alpha0' z13 z44 z43 reg
  pure result

end BaseFieldElem

end Verif.MulFixed
