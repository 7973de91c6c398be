import Verif.Mul.Complete
import Verif.Mul.Overflow
import Verif.Mul.Scalar

/-!
# The layout of variable-base scalar multiplication, written out
-/

namespace Verif.Mul

open Verif.Region Verif.Ecc Verif.Utilities Verif.RunningSum

variable {C S : Type}

section

variable {F : Type} [Field F] [DecidableEq F] {b : F}

/-- The point added for the least significant bit. -/
def lsbPt (lsb : Bool) (P : Pt b) : Pt b := if lsb then 0 else -P

/-- The cells of the point added for the least significant bit. -/
def lsbCells (cfg : Config C S) (reg offset : ℕ) (base : EccPoint C F) (lsb : Bool) : EccPoint C F :=
  ⟨⟨⟨reg, cfg.add.xP, offset⟩, if !lsb then base.x.value else 0⟩,
    ⟨⟨reg, cfg.add.yP, offset⟩, if !lsb then -base.y.value else 0⟩⟩

/-- The operations of `process_lsb`. -/
def lsbOps (cfg : Config C S) (reg offset : ℕ) (base acc : EccPoint C F) (z1 : ACell C F)
    (lsb : Bool) : List (Op C S F) :=
  [.enable cfg.qMulLsb reg offset,
    .advice ⟨reg, cfg.complete.zComplete, (offset + 1 : ℕ)⟩ (z1.value * 2 + Incomplete.bitVal lsb),
    .advice ⟨reg, cfg.add.xP, (offset + 1 : ℕ)⟩ base.x.value,
    .equal ⟨reg, cfg.add.xP, (offset + 1 : ℕ)⟩ base.x.cell,
    .advice ⟨reg, cfg.add.yP, (offset + 1 : ℕ)⟩ base.y.value,
    .equal ⟨reg, cfg.add.yP, (offset + 1 : ℕ)⟩ base.y.cell,
    .advice ⟨reg, cfg.add.xP, offset⟩ (if !lsb then base.x.value else 0),
    .advice ⟨reg, cfg.add.yP, offset⟩ (if !lsb then -base.y.value else 0)] ++
  Add.ops cfg.add (lsbCells cfg reg offset base lsb) acc reg offset

/-- The results of `process_lsb`. -/
def lsbOut (cfg : Config C S) (reg offset : ℕ) (base acc : EccPoint C F) (z1 : ACell C F)
    (lsb : Bool) : EccPoint C F × ACell C F :=
  (Add.out cfg.add (lsbCells cfg reg offset base lsb) acc reg offset,
    ⟨⟨reg, cfg.complete.zComplete, (offset + 1 : ℕ)⟩, z1.value * 2 + Incomplete.bitVal lsb⟩)

theorem processLsb_run (cfg : Config C S) (reg offset : ℕ) (base acc : EccPoint C F)
    (z1 : ACell C F) (lsb : Bool) (m : ℕ) : processLsb cfg reg offset base acc z1 lsb m
      = some (lsbOut cfg reg offset base acc z1 lsb, m, lsbOps cfg reg offset base acc z1 lsb) := by
  have hp : ∀ {α : Type} (a : α) (n : ℕ), (pure a : M C S F α) n = some (a, n, []) :=
    fun _ _ => rfl
  unfold processLsb
  simp only [bind_apply, enable, assignAdvice, ACell.copyAdvice, constrainEqual, emit, hp,
    List.append_nil]
  have h := Add.run cfg.add (lsbCells cfg reg offset base lsb) acc reg offset m
  unfold lsbCells at h
  rw [h]
  rfl

theorem processLsb_sound (hg : Good b) {cfg : Config C S} {reg offset : ℕ}
    {base acc : EccPoint C F} {z1 : ACell C F} {lsb : Bool}
    (hz1 : z1.cell = ⟨reg, cfg.complete.zComplete, offset⟩) {G : Grid C F}
    (hs : Sat (Add.gates cfg.add ++ lsbGates cfg) G (lsbOps cfg reg offset base acc z1 lsb))
    {P A : Pt b} (hP : Holds G base P) (hA : Holds G acc A) :
    ∃ k : Bool, G.at (lsbOut cfg reg offset base acc z1 lsb).2.cell
        = 2 * G.at z1.cell + Incomplete.bitVal k ∧
      Holds G (lsbOut cfg reg offset base acc z1 lsb).1 (lsbPt k P + A) := by
  have hgate := hs.gates _ (List.mem_append_right _ (List.mem_singleton.2 rfl)) reg offset
    (by simp [lsbOps])
  have ep : (offset : ℤ) + 1 = ((offset + 1 : ℕ) : ℤ) := by push_cast; ring
  simp only [Grid.query, ep, add_zero, List.mem_cons, List.not_mem_nil, or_false,
    forall_eq_or_imp, forall_eq, boolCheck_iff] at hgate
  have cx : G reg cfg.add.xP (offset + 1 : ℕ) = G.at base.x.cell :=
    hs.equal ⟨reg, cfg.add.xP, (offset + 1 : ℕ)⟩ _ (by simp [lsbOps])
  have cy : G reg cfg.add.yP (offset + 1 : ℕ) = G.at base.y.cell :=
    hs.equal ⟨reg, cfg.add.yP, (offset + 1 : ℕ)⟩ _ (by simp [lsbOps])
  have hP' : enc P = (G.at base.x.cell, G.at base.y.cell) := hP
  obtain ⟨hk, hx, hy⟩ := hgate
  have hadd := (hs.mono (gates := Add.gates cfg.add) (fun g h => List.mem_append_left _ h)
    (ops := lsbOps cfg reg offset base acc z1 lsb) fun _ h => h).right
  have done : ∀ k : Bool, G reg cfg.complete.zComplete (offset + 1 : ℕ)
        = 2 * G reg cfg.complete.zComplete offset + Incomplete.bitVal k →
      Holds G (lsbCells cfg reg offset base lsb) (lsbPt k P) → ∃ k : Bool,
      G.at (lsbOut cfg reg offset base acc z1 lsb).2.cell
        = 2 * G.at z1.cell + Incomplete.bitVal k ∧
      Holds G (lsbOut cfg reg offset base acc z1 lsb).1 (lsbPt k P + A) := by
    intro k h1 h2
    refine ⟨k, ?_, ?_⟩
    · rw [hz1]; exact h1
    · exact Add.sound hg (Add.run cfg.add (lsbCells cfg reg offset base lsb) acc reg offset 0) G
        hadd h2 hA
  rcases hk with hk | hk
  · refine done false ?_ ?_
    · simp only [Incomplete.bitVal, Bool.false_eq_true, if_false]
      linear_combination hk
    · rw [hk, ternary_zero] at hx hy
      unfold Holds
      simp only [lsbPt, Bool.false_eq_true, if_false, enc_neg hg, hP', Prod.mk.injEq]
      rw [← cx, ← cy]
      change _ = G reg cfg.add.xP offset ∧ _ = G reg cfg.add.yP offset
      exact ⟨by linear_combination -hx, by linear_combination -hy⟩
  · refine done true ?_ ?_
    · simp only [Incomplete.bitVal, if_true]
      linear_combination hk
    · rw [hk, ternary_one] at hx hy
      unfold Holds
      simp only [lsbPt, if_true, enc_zero, Prod.mk.injEq]
      exact ⟨hx.symm, hy.symm⟩

theorem processLsb_complete (hg : Good b) {cfg : Config C S} (hsel : cfg.qMulLsb ≠ cfg.add.qAdd)
    {reg offset : ℕ} {base acc : EccPoint C F} {z1 : ACell C F} {lsb : Bool}
    (hz1 : z1.cell = ⟨reg, cfg.complete.zComplete, offset⟩) {P A : Pt b} (hP : Val base P)
    (hA : Val acc A) :
    Val (lsbOut cfg reg offset base acc z1 lsb).1 (lsbPt lsb P + A) ∧
    ∀ G, Honest G (lsbOps cfg reg offset base acc z1 lsb) → Holds G base P → Holds G acc A →
      G.at z1.cell = z1.value →
      Sat (Add.gates cfg.add ++ lsbGates cfg) G (lsbOps cfg reg offset base acc z1 lsb) ∧
      Holds G (lsbOut cfg reg offset base acc z1 lsb).1 (lsbPt lsb P + A) ∧
      G.at (lsbOut cfg reg offset base acc z1 lsb).2.cell
        = (lsbOut cfg reg offset base acc z1 lsb).2.value := by
  have hP' : enc P = (base.x.value, base.y.value) := hP
  have hv : Val (lsbCells cfg reg offset base lsb) (lsbPt lsb P) := by
    unfold Val
    cases lsb
    · simp [lsbPt, lsbCells, enc_neg hg, hP']
    · simp [lsbPt, lsbCells, enc_zero]
  obtain ⟨v, c⟩ := Add.complete hg
    (Add.run cfg.add (lsbCells cfg reg offset base lsb) acc reg offset 0) hv hA
  refine ⟨v, fun G hG hGP hGA hz => ?_⟩
  have hGP' : enc P = (G.at base.x.cell, G.at base.y.cell) := hGP
  have e := hP'.symm.trans hGP'
  rw [Prod.mk.injEq] at e
  rw [hz1] at hz
  have g0 : G reg cfg.complete.zComplete (offset + 1 : ℕ)
      = z1.value * 2 + Incomplete.bitVal lsb :=
    hG.1 ⟨reg, cfg.complete.zComplete, (offset + 1 : ℕ)⟩ _ (by simp [lsbOps])
  have g1 : G reg cfg.add.xP (offset + 1 : ℕ) = base.x.value :=
    hG.1 ⟨reg, cfg.add.xP, (offset + 1 : ℕ)⟩ _ (by simp [lsbOps])
  have g2 : G reg cfg.add.yP (offset + 1 : ℕ) = base.y.value :=
    hG.1 ⟨reg, cfg.add.yP, (offset + 1 : ℕ)⟩ _ (by simp [lsbOps])
  have g3 : G reg cfg.add.xP offset = if !lsb then base.x.value else 0 :=
    hG.1 ⟨reg, cfg.add.xP, offset⟩ _ (by simp [lsbOps])
  have g4 : G reg cfg.add.yP offset = if !lsb then -base.y.value else 0 :=
    hG.1 ⟨reg, cfg.add.yP, offset⟩ _ (by simp [lsbOps])
  have hH : Holds G (lsbCells cfg reg offset base lsb) (lsbPt lsb P) := by
    refine hv.trans ?_
    rw [Prod.mk.injEq]
    exact ⟨g3.symm, g4.symm⟩
  obtain ⟨s, h⟩ := c G hG.right hH hGA
  refine ⟨?_, h, g0⟩
  have ep : (offset : ℤ) + 1 = ((offset + 1 : ℕ) : ℤ) := by push_cast; ring
  refine Sat.append ⟨?_, ?_, ?_, ?_⟩ ⟨?_, s.equal, s.const, s.fixed⟩
  · intro g hgm r row hm
    simp only [List.mem_cons, Op.enable.injEq, reduceCtorEq, List.not_mem_nil, or_false] at hm
    obtain ⟨h1, rfl, rfl⟩ := hm
    rcases List.mem_append.1 hgm with hgm | hgm
    · rw [List.mem_singleton.1 hgm] at h1
      exact absurd h1.symm hsel
    · rw [List.mem_singleton.1 hgm]
      have hz' : G r cfg.complete.zComplete offset = z1.value := hz
      simp only [Grid.query, ep, add_zero, g0, g1, g2, g3, g4, hz', List.mem_cons,
        List.not_mem_nil, or_false, forall_eq_or_imp, forall_eq, boolCheck_iff]
      have ek : z1.value * 2 + Incomplete.bitVal lsb - z1.value * 2 = Incomplete.bitVal lsb := by
        ring
      rw [ek]
      cases lsb
      · simp [Incomplete.bitVal, ternary_zero]
      · simp [Incomplete.bitVal, ternary_one]
  · intro x y hm
    simp only [List.mem_cons, Op.equal.injEq, reduceCtorEq, List.not_mem_nil, or_false,
      false_or] at hm
    rcases hm with ⟨rfl, rfl⟩ | ⟨rfl, rfl⟩
    · rw [← e.1]; exact g1
    · rw [← e.2]; exact g2
  · intro x v hm; simp at hm
  · intro x v hm; simp at hm
  · intro g hgm r row hm
    rcases List.mem_append.1 hgm with hgm | hgm
    · exact s.gates g hgm r row hm
    · exfalso
      have : g.1 = cfg.add.qAdd := by simp [Add.ops] at hm; exact hm.1
      rw [List.mem_singleton.1 hgm] at this
      exact hsel this

end

variable {p : ℕ} [Fact p.Prime]

theorem decompose_length (α : ZMod p) : (decomposeForScalarMul α).length = 255 := by
  simp [decomposeForScalarMul, numBits]

theorem ofBits_testBit (n K : ℕ) : ofBits ((List.range n).map fun i => K.testBit i).reverse
    = K % 2 ^ n := by
  induction n with
  | zero => simp [ofBits, Nat.mod_one]
  | succ n ih =>
    rw [List.range_succ, List.map_append, List.reverse_append, List.map_singleton,
      List.reverse_singleton, ofBits_append, List.length_reverse, List.length_map,
      List.length_range, ih]
    have e : ofBits [K.testBit n] = K / 2 ^ n % 2 := by
      rw [Nat.testBit_eq_decide_div_mod_eq]
      have : K / 2 ^ n % 2 < 2 := Nat.mod_lt _ (by norm_num)
      by_cases h : K / 2 ^ n % 2 = 1
      · simp [ofBits, bit, h]
      · have h0 : K / 2 ^ n % 2 = 0 := by omega
        simp [ofBits, bit, h0]
    rw [e, pow_succ, Nat.mod_mul, add_comm]

/-- The bits decomposed are those of `α + t_q`. -/
theorem ofBits_decompose (α : ZMod p) (h : α.val + T_Q < 2 ^ 255) :
    ofBits (decomposeForScalarMul α) = α.val + T_Q := by
  unfold decomposeForScalarMul
  rw [ofBits_testBit]
  exact Nat.mod_eq_of_lt h

section

variable (cfg : Config C S) (alpha : ACell C (ZMod p)) (base baseInc : EccPoint C (ZMod p)) (reg : ℕ)

def bHi : List Bool := (decomposeForScalarMul alpha.value).take hiLen
def bLo : List Bool := ((decomposeForScalarMul alpha.value).take incompleteLen).drop hiLen
def bCo : List Bool :=
  ((decomposeForScalarMul alpha.value).take (incompleteLen + numCompleteBits)).drop incompleteLen
def bLsb : Bool := (decomposeForScalarMul alpha.value)[254]'(by rw [decompose_length]; norm_num)

theorem bHi_length : (bHi alpha).length = 125 := by
  simp [bHi, decompose_length, hiLen, incompleteLen, numBits, numCompleteBits]

theorem bLo_length : (bLo alpha).length = 126 := by
  simp [bLo, decompose_length, hiLen, incompleteLen, numBits, numCompleteBits]

theorem bCo_length : (bCo alpha).length = 3 := by
  simp [bCo, decompose_length, incompleteLen, numBits, numCompleteBits]

theorem bits_eq : bHi alpha ++ bLo alpha ++ bCo alpha ++ [bLsb alpha]
    = decomposeForScalarMul alpha.value := by
  have hl := decompose_length alpha.value
  unfold bHi bLo bCo bLsb
  set l := decomposeForScalarMul alpha.value with hld
  have e1 : l.take hiLen ++ (l.take incompleteLen).drop hiLen = l.take incompleteLen := by
    conv_rhs => rw [← List.take_append_drop hiLen (l.take incompleteLen)]
    rw [List.take_take]
    rfl
  have e2 : l.take incompleteLen ++ (l.take (incompleteLen + numCompleteBits)).drop incompleteLen
      = l.take (incompleteLen + numCompleteBits) := by
    conv_rhs => rw [← List.take_append_drop incompleteLen (l.take (incompleteLen + numCompleteBits))]
    rw [List.take_take]
    rfl
  rw [e1, e2]
  have e3 : incompleteLen + numCompleteBits = 254 := rfl
  rw [e3, ← List.take_succ_eq_append_getElem (by omega)]
  exact List.take_of_length_le (by omega)

/-- `[2] base`. -/
def acc0 : EccPoint C (ZMod p) := Add.out cfg.add base base reg 0

/-- The start of the running sum. -/
def zI : ACell C (ZMod p) := ⟨⟨reg, cfg.hi.z, 1⟩, 0⟩

/-- The first half. -/
def hiOut : EccPoint C (ZMod p) × List (ACell C (ZMod p)) :=
  Incomplete.dadOut hiLen cfg.hi reg 1 baseInc (bHi alpha) (acc0 cfg base reg) (zI cfg reg)

/-- The running sum after the first half. -/
def zH : ACell C (ZMod p) :=
  ⟨⟨reg, cfg.hi.z, (1 + 1 + 124 : ℕ)⟩,
    (Incomplete.st baseInc.x.value baseInc.y.value
      ((acc0 cfg base reg).x.value, (acc0 cfg base reg).y.value, (zI cfg reg).value) (bHi alpha)
      (bHi alpha).length).2.2⟩

/-- The second half. -/
def loOut : EccPoint C (ZMod p) × List (ACell C (ZMod p)) :=
  Incomplete.dadOut loLen cfg.lo reg 1 baseInc (bLo alpha) (hiOut cfg alpha base baseInc reg).1
    (zH cfg alpha base baseInc reg)

/-- The running sum after the second half. -/
def zL : ACell C (ZMod p) :=
  ⟨⟨reg, cfg.lo.z, (1 + 1 + 125 : ℕ)⟩,
    (Incomplete.st baseInc.x.value baseInc.y.value
      ((hiOut cfg alpha base baseInc reg).1.x.value, (hiOut cfg alpha base baseInc reg).1.y.value,
        (zH cfg alpha base baseInc reg).value) (bLo alpha) (bLo alpha).length).2.2⟩

/-- The accumulator after complete addition. -/
def coAcc : EccPoint C (ZMod p) :=
  Complete.loopAcc cfg.complete reg base 129 (loOut cfg alpha base baseInc reg).1 (bCo alpha)

/-- The running sum of complete addition. -/
def coZs : List (ACell C (ZMod p)) :=
  Complete.loopZs cfg.complete reg 129 (zL cfg alpha base baseInc reg).value (bCo alpha)

/-- The running sum after complete addition. -/
def z1 : ACell C (ZMod p) :=
  ⟨⟨reg, cfg.complete.zComplete, (135 : ℕ)⟩, zEnd (zL cfg alpha base baseInc reg).value (bCo alpha)⟩

/-- The results of `process_lsb`. -/
def lsOut : EccPoint C (ZMod p) × ACell C (ZMod p) :=
  lsbOut cfg reg 135 base (coAcc cfg alpha base baseInc reg) (z1 cfg alpha base baseInc reg)
    (bLsb alpha)

/-- The running sums, most significant first. -/
def zsFwd : List (ACell C (ZMod p)) :=
  [zI cfg reg] ++ (hiOut cfg alpha base baseInc reg).2 ++ (loOut cfg alpha base baseInc reg).2 ++
    coZs cfg alpha base baseInc reg ++ [(lsOut cfg alpha base baseInc reg).2]

def opsHi : List (Op C S (ZMod p)) :=
  Incomplete.dadOps hiLen cfg.hi reg 1 baseInc (bHi alpha) (acc0 cfg base reg) (zI cfg reg)

def opsLo : List (Op C S (ZMod p)) :=
  Incomplete.dadOps loLen cfg.lo reg 1 baseInc (bLo alpha) (hiOut cfg alpha base baseInc reg).1
    (zH cfg alpha base baseInc reg)

def opsCo : List (Op C S (ZMod p)) :=
  Complete.ops numCompleteBits cfg.complete reg 129 (bCo alpha) base
    (loOut cfg alpha base baseInc reg).1 (zL cfg alpha base baseInc reg)

def opsLs : List (Op C S (ZMod p)) :=
  lsbOps cfg reg 135 base (coAcc cfg alpha base baseInc reg) (z1 cfg alpha base baseInc reg)
    (bLsb alpha)

/-- All the operations of the region. -/
def regionOps : List (Op C S (ZMod p)) :=
  Add.ops cfg.add base base reg 0 ++
  ([.advice ⟨reg, cfg.hi.z, 1⟩ 0, .const ⟨reg, cfg.hi.z, 1⟩ 0] ++
  (opsHi cfg alpha base baseInc reg ++ (opsLo cfg alpha base baseInc reg ++
  (opsCo cfg alpha base baseInc reg ++ opsLs cfg alpha base baseInc reg))))

theorem zCells_getLast {F : Type} [Field F] {cfg : Incomplete.Config C S} {reg : ℕ} {xp yp : F}
    {row : ℕ} {s : F × F × F} {ks : List Bool} {n : ℕ} (h : ks.length = n + 1) :
    (Incomplete.zCells cfg reg xp yp row s ks).getLast?
      = some ⟨⟨reg, cfg.z, (row + n : ℕ)⟩, (Incomplete.st xp yp s ks ks.length).2.2⟩ := by
  unfold Incomplete.zCells
  rw [h, List.range_succ, List.map_append, List.map_singleton, List.getLast?_append]
  rfl

theorem loopZs_getLast {F : Type} [Field F] {cfg : Complete.Config C S} {reg : ℕ} {row : ℕ} {z : F}
    {ks : List Bool} (h : ks.length = 3) :
    (Complete.loopZs cfg reg row z ks).getLast?
      = some ⟨⟨reg, cfg.zComplete, (row + 6 : ℕ)⟩, zEnd z ks⟩ := by
  match ks, h with
  | [k1, k2, k3], _ =>
    simp only [Complete.loopZs, zEnd, List.foldl_cons, List.foldl_nil, List.getLast?_cons,
      List.getLast?_nil, Option.getD_some, Option.getD_none, mul_comm (2 : F)]

theorem mulRegion_run (hex1 : ¬ Incomplete.Exceptional baseInc (acc0 cfg base reg))
    (hex2 : ¬ Incomplete.Exceptional baseInc (hiOut cfg alpha base baseInc reg).1) (m : ℕ) :
    mulRegion cfg alpha base baseInc reg m
      = some (((lsOut cfg alpha base baseInc reg).1, (zsFwd cfg alpha base baseInc reg).reverse), m,
          regionOps cfg alpha base baseInc reg) := by
  have hu : ∀ {α β : Type} (a : α) (f : α → M C S (ZMod p) β) (n : ℕ),
      ((unwrap (some a) : M C S (ZMod p) α) >>= f) n = f a n := by
    intro α β a f n
    rw [bind_apply]
    have e : (unwrap (some a) : M C S (ZMod p) α) n = some (a, n, []) := rfl
    rw [e]
    dsimp only
    rcases f a n with _ | ⟨b, m, o⟩ <;> rfl
  unfold mulRegion
  have hlsb : (decomposeForScalarMul alpha.value)[numBits - 1]? = some (bLsb alpha) :=
    List.getElem?_eq_getElem (by rw [decompose_length]; norm_num [numBits])
  rw [hlsb, hu]
  unfold regionOps
  refine bind_of (a := acc0 cfg base reg) (n' := m) (Add.run cfg.add base base reg 0 m) ?_
  refine bind_of (a := zI cfg reg) (n' := m)
    (ops₁ := [.advice ⟨reg, cfg.hi.z, 1⟩ 0, .const ⟨reg, cfg.hi.z, 1⟩ 0]) rfl ?_
  refine bind_of (a := hiOut cfg alpha base baseInc reg) (n' := m) (ops₁ := opsHi cfg alpha base baseInc reg)
    (Incomplete.dad_run (bHi_length alpha) hex1 m) ?_
  have hzH : (hiOut cfg alpha base baseInc reg).2.getLast? = some (zH cfg alpha base baseInc reg) :=
    zCells_getLast (n := 124) (bHi_length alpha)
  rw [hzH, hu]
  refine bind_of (a := loOut cfg alpha base baseInc reg) (n' := m) (ops₁ := opsLo cfg alpha base baseInc reg)
    (Incomplete.dad_run (bLo_length alpha) hex2 m) ?_
  rw [assert_bind (by decide)]
  have hzL : (loOut cfg alpha base baseInc reg).2.getLast? = some (zL cfg alpha base baseInc reg) :=
    zCells_getLast (n := 125) (bLo_length alpha)
  dsimp only
  rw [hzL, hu]
  refine bind_of (a := (coAcc cfg alpha base baseInc reg, coZs cfg alpha base baseInc reg)) (n' := m) (ops₁ := opsCo cfg alpha base baseInc reg)
    (Complete.run (bCo_length alpha) m) ?_
  have hz1 : (coZs cfg alpha base baseInc reg).getLast? = some (z1 cfg alpha base baseInc reg) :=
    loopZs_getLast (bCo_length alpha)
  dsimp only
  rw [hz1, hu]
  have hlast := processLsb_run cfg reg 135 base (coAcc cfg alpha base baseInc reg)
    (z1 cfg alpha base baseInc reg) (bLsb alpha) m
  rw [← List.append_nil (opsLs cfg alpha base baseInc reg)]
  refine bind_of hlast ?_
  have hlen : (zsFwd cfg alpha base baseInc reg).length = numBits + 1 := by
    have e1 : (hiOut cfg alpha base baseInc reg).2.length = 125 := by
      simp [hiOut, Incomplete.dadOut, Incomplete.zCells, bHi_length]
    have e2 : (loOut cfg alpha base baseInc reg).2.length = 126 := by
      simp [loOut, Incomplete.dadOut, Incomplete.zCells, bLo_length]
    have e3 : (coZs cfg alpha base baseInc reg).length = 3 := by
      have := bCo_length alpha
      unfold coZs
      match bCo alpha, this with
      | [k1, k2, k3], _ => rfl
    simp [zsFwd, e1, e2, e3, numBits]
  exact bind_of (a := ()) (n' := m) (ops₁ := []) (ops₂ := []) (if_pos hlen) rfl

end

theorem mulRegion_some {cfg : Config C S} {alpha : ACell C (ZMod p)}
    {base baseInc : EccPoint C (ZMod p)} {reg m : ℕ}
    {r : (EccPoint C (ZMod p) × List (ACell C (ZMod p))) × ℕ × List (Op C S (ZMod p))}
    (h : mulRegion cfg alpha base baseInc reg m = some r) :
    ¬ Incomplete.Exceptional baseInc (acc0 cfg base reg) ∧
    ¬ Incomplete.Exceptional baseInc (hiOut cfg alpha base baseInc reg).1 := by
  obtain ⟨r1, r2, r3⟩ := r
  unfold mulRegion at h
  obtain ⟨_, _, _, _, h1, h2, _⟩ := bind_some h
  obtain ⟨a, _, _, _, h3, h4, _⟩ := bind_some h2
  rw [Add.run] at h3
  simp only [Option.some.injEq, Prod.mk.injEq] at h3
  obtain ⟨rfl, rfl, -⟩ := h3
  obtain ⟨z, _, _, _, h5, h6, _⟩ := bind_some h4
  have h5' : (some (zI cfg reg, _, _) : Option (ACell C (ZMod p) × ℕ × List (Op C S (ZMod p))))
    = some (z, _, _) := h5
  simp only [Option.some.injEq, Prod.mk.injEq] at h5'
  obtain ⟨rfl, rfl, -⟩ := h5'
  obtain ⟨hi, _, _, _, h7, h8, _⟩ := bind_some h6
  obtain ⟨-, hex1⟩ := Incomplete.dad_some h7
  refine ⟨hex1, ?_⟩
  rw [Incomplete.dad_run (by exact bHi_length alpha) hex1] at h7
  simp only [Option.some.injEq, Prod.mk.injEq] at h7
  obtain ⟨rfl, rfl, -⟩ := h7
  obtain ⟨zh, _, _, _, h9, h10, _⟩ := bind_some h8
  obtain ⟨lo, _, _, _, h11, h12, _⟩ := bind_some h10
  exact (Incomplete.dad_some h11).2

end Verif.Mul
