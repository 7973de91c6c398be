import Verif.Mul.Honest

/-!
# The constraints of the multiplication do not depend on the witnesses

The selectors, copy constraints and constants of the layout are the same whatever point the prover
uses in the incomplete additions.
-/

namespace Verif.Mul

open Verif.Region Verif.Ecc Verif.Utilities Verif.RunningSum

variable {C S : Type}

/-- Not a witness. -/
def keep {F : Type} : Op C S F → Bool
  | .advice _ _ => false
  | _ => true

/-- The two layouts impose the same constraints. -/
def Same {F : Type} (ops ops' : List (Op C S F)) : Prop :=
  ∀ op, keep op = true → (op ∈ ops ↔ op ∈ ops')

section

variable {F : Type}

theorem Same.refl (ops : List (Op C S F)) : Same ops ops := fun _ _ => Iff.rfl

theorem Same.append {a a' b b' : List (Op C S F)} (h : Same a a') (h' : Same b b') :
    Same (a ++ b) (a' ++ b') := fun op hop => by
  rw [List.mem_append, List.mem_append, h op hop, h' op hop]

theorem Same.sat [Zero F] {gs : Gates C S F} {G : Grid C F} {ops ops' : List (Op C S F)}
    (h : Same ops ops') (hs : Sat gs G ops) : Sat gs G ops' where
  gates g hg reg row hm := hs.gates g hg reg row ((h _ rfl).2 hm)
  equal x y hm := hs.equal x y ((h _ rfl).2 hm)
  const x v hm := hs.const x v ((h _ rfl).2 hm)
  fixed x v hm := hs.fixed x v ((h _ rfl).2 hm)

theorem Same.lookup [Field F] {l : LookupArg C S F} {G : Grid C F} {ops ops' : List (Op C S F)}
    {reg : ℕ} (h : Same ops ops') (hs : SatLookup l G ops reg) : SatLookup l G ops' reg :=
  (LookupRange.SatLookup.congr fun s row => h (.enable s reg row) rfl).1 hs

/-- The same cells. -/
def SameP (P Q : EccPoint C F) : Prop := P.x.cell = Q.x.cell ∧ P.y.cell = Q.y.cell

variable [Field F] [DecidableEq F]

theorem Same.add {cfg : Add.Config C S} {p q p' q' : EccPoint C F} {reg offset : ℕ}
    (hp : SameP p p') (hq : SameP q q') :
    Same (Add.ops cfg p q reg offset) (Add.ops cfg p' q' reg offset) := by
  obtain ⟨h1, h2⟩ := hp
  obtain ⟨h3, h4⟩ := hq
  intro op hop
  cases op with
  | advice c v => cases hop
  | _ => simp [Add.ops, h1, h2, h3, h4]

omit [DecidableEq F] in
theorem Same.dad {n : ℕ} {cfg : Incomplete.Config C S} {reg offset : ℕ}
    {base base' acc acc' : EccPoint C F} {bits bits' : List Bool} {z z' : ACell C F}
    (ha : SameP acc acc') (hz : z.cell = z'.cell) :
    Same (Incomplete.dadOps n cfg reg offset base bits acc z)
      (Incomplete.dadOps n cfg reg offset base' bits' acc' z') := by
  obtain ⟨h1, h2⟩ := ha
  have hl : ∀ (xp yp : F) (row : ℕ) (s : F × F × F) (ks : List Bool) (op : Op C S F),
      keep op = true → op ∉ Incomplete.loopOps cfg reg xp yp row s ks := by
    intro xp yp row s ks op hop hm
    rw [Incomplete.mem_loopOps] at hm
    obtain ⟨i, hi, hm⟩ := hm
    cases op with
    | advice c v => cases hop
    | _ => simp [Incomplete.rowOps] at hm
  intro op hop
  simp only [Incomplete.dadOps, List.mem_append, hl _ _ _ _ _ op hop]
  cases op with
  | advice c v => cases hop
  | _ => simp [h1, h2, hz]

omit [DecidableEq F] in
theorem dadOut_x {n : ℕ} {cfg : Incomplete.Config C S} {reg offset : ℕ}
    {base acc : EccPoint C F} {bits : List Bool} {z : ACell C F} :
    (Incomplete.dadOut n cfg reg offset base bits acc z).1.x.cell
      = ⟨reg, cfg.da.xA, (offset + 1 + bits.length : ℕ)⟩ := rfl

omit [DecidableEq F] in
theorem dadOut_y {n : ℕ} {cfg : Incomplete.Config C S} {reg offset : ℕ}
    {base acc : EccPoint C F} {bits : List Bool} {z : ACell C F} :
    (Incomplete.dadOut n cfg reg offset base bits acc z).1.y.cell
      = ⟨reg, cfg.da.lambda1, (offset + 1 + n : ℕ)⟩ := rfl

omit [DecidableEq F] in
theorem SameP.dadOut {n : ℕ} {cfg : Incomplete.Config C S} {reg offset : ℕ}
    {base base' acc acc' : EccPoint C F} {bits : List Bool} {z z' : ACell C F} :
    SameP (Incomplete.dadOut n cfg reg offset base bits acc z).1
      (Incomplete.dadOut n cfg reg offset base' bits acc' z').1 :=
  ⟨dadOut_x.trans dadOut_x.symm, dadOut_y.trans dadOut_y.symm⟩

omit [DecidableEq F] in
theorem dadOut_zs (n : ℕ) (cfg : Incomplete.Config C S) (reg offset : ℕ) (base acc : EccPoint C F)
    (bits : List Bool) (z : ACell C F) :
    (Incomplete.dadOut n cfg reg offset base bits acc z).2.map ACell.cell
      = (List.range bits.length).map fun i => ⟨reg, cfg.z, (offset + 1 + i : ℕ)⟩ := by
  simp [Incomplete.dadOut, Incomplete.zCells, Function.comp_def]

omit [DecidableEq F] in
theorem loopZs_cells (cfg : Complete.Config C S) (reg row : ℕ) (z z' : F) (ks : List Bool) :
    (Complete.loopZs cfg reg row z ks).map ACell.cell
      = (Complete.loopZs cfg reg row z' ks).map ACell.cell := by
  induction ks generalizing row z z' with
  | nil => rfl
  | cons k ks ih =>
    simp only [Complete.loopZs, List.map_cons]
    rw [ih]

theorem SameP.loopAcc {cfg : Complete.Config C S} {reg : ℕ} {base : EccPoint C F} {row : ℕ}
    {acc acc' : EccPoint C F} {ks : List Bool} (ha : SameP acc acc') :
    SameP (Complete.loopAcc cfg reg base row acc ks) (Complete.loopAcc cfg reg base row acc' ks) := by
  induction ks generalizing row acc acc' with
  | nil => exact ha
  | cons k ks ih => exact ih ⟨rfl, rfl⟩

theorem Same.complete {len : ℕ} {cfg : Complete.Config C S} {reg offset : ℕ} {bits : List Bool}
    {base acc acc' : EccPoint C F} {z z' : ACell C F} (ha : SameP acc acc') (hz : z.cell = z'.cell) :
    Same (Complete.ops len cfg reg offset bits base acc z)
      (Complete.ops len cfg reg offset bits base acc' z') := by
  have hl : ∀ (ks : List Bool) (row : ℕ) (acc acc' : EccPoint C F) (zv zv' : F),
      SameP acc acc' → Same (Complete.loopOps cfg reg base row acc zv ks)
        (Complete.loopOps cfg reg base row acc' zv' ks) := by
    intro ks
    induction ks with
    | nil => intro row acc acc' zv zv' _; exact Same.refl _
    | cons k ks ih =>
      intro row acc acc' zv zv' h
      refine Same.append (Same.append (Same.append ?_ (Same.add ⟨rfl, rfl⟩ h))
        (Same.add h ⟨rfl, rfl⟩)) (ih _ _ _ _ _ ⟨rfl, rfl⟩)
      intro op hop
      cases op with
      | advice c v => cases hop
      | _ => simp
  refine Same.append (Same.append (Same.refl _) ?_) (hl _ _ _ _ _ _ ha)
  intro op hop
  cases op with
  | advice c v => cases hop
  | _ => simp [hz]

theorem Same.lsb {cfg : Config C S} {reg offset : ℕ} {base acc acc' : EccPoint C F}
    {z1 z1' : ACell C F} {lsb : Bool} (ha : SameP acc acc') :
    Same (lsbOps cfg reg offset base acc z1 lsb) (lsbOps cfg reg offset base acc' z1' lsb) := by
  refine Same.append ?_ (Same.add ⟨rfl, rfl⟩ ha)
  intro op hop
  cases op with
  | advice c v => cases hop
  | _ => simp

end

variable {p : ℕ} [Fact p.Prime]

section

variable (cfg : Config C S) (alpha : ACell C (ZMod p)) (base b1 b2 : EccPoint C (ZMod p)) (reg : ℕ)

theorem sameP_hi : SameP (hiOut cfg alpha base b1 reg).1 (hiOut cfg alpha base b2 reg).1 := by
  unfold hiOut
  exact SameP.dadOut

theorem sameP_lo : SameP (loOut cfg alpha base b1 reg).1 (loOut cfg alpha base b2 reg).1 := by
  unfold loOut
  exact SameP.dadOut

theorem zH_cell : (zH cfg alpha base b1 reg).cell = (zH cfg alpha base b2 reg).cell := by
  simp only [zH]

theorem zL_cell : (zL cfg alpha base b1 reg).cell = (zL cfg alpha base b2 reg).cell := by
  simp only [zL]

theorem same_hi : Same (opsHi cfg alpha base b1 reg) (opsHi cfg alpha base b2 reg) := by
  unfold opsHi
  exact Same.dad ⟨Eq.refl (acc0 cfg base reg).x.cell, Eq.refl (acc0 cfg base reg).y.cell⟩
    (Eq.refl (zI cfg reg).cell)

theorem same_lo : Same (opsLo cfg alpha base b1 reg) (opsLo cfg alpha base b2 reg) := by
  unfold opsLo
  exact Same.dad (sameP_hi cfg alpha base b1 b2 reg) (zH_cell cfg alpha base b1 b2 reg)

theorem same_co : Same (opsCo cfg alpha base b1 reg) (opsCo cfg alpha base b2 reg) := by
  unfold opsCo
  apply Same.complete
  · exact sameP_lo cfg alpha base b1 b2 reg
  · exact zL_cell cfg alpha base b1 b2 reg

theorem sameP_co : SameP (coAcc cfg alpha base b1 reg) (coAcc cfg alpha base b2 reg) := by
  unfold coAcc
  apply SameP.loopAcc
  exact sameP_lo cfg alpha base b1 b2 reg

theorem same_ls : Same (opsLs cfg alpha base b1 reg) (opsLs cfg alpha base b2 reg) := by
  unfold opsLs
  apply Same.lsb
  exact sameP_co cfg alpha base b1 b2 reg

theorem same_region : Same (regionOps cfg alpha base b1 reg) (regionOps cfg alpha base b2 reg) := by
  unfold regionOps
  apply Same.append
  · exact Same.refl _
  apply Same.append
  · exact Same.refl _
  exact (same_hi cfg alpha base b1 b2 reg).append ((same_lo cfg alpha base b1 b2 reg).append
    ((same_co cfg alpha base b1 b2 reg).append (same_ls cfg alpha base b1 b2 reg)))

theorem zsFwd_length : (zsFwd cfg alpha base b1 reg).length = 256 := by
  have e1 : (hiOut cfg alpha base b1 reg).2.length = 125 := by
    simp [hiOut, Incomplete.dadOut, Incomplete.zCells, bHi_length]
  have e2 : (loOut cfg alpha base b1 reg).2.length = 126 := by
    simp [loOut, Incomplete.dadOut, Incomplete.zCells, bLo_length]
  have e3 : (coZs cfg alpha base b1 reg).length = 3 := by
    have := bCo_length alpha
    unfold coZs
    match bCo alpha, this with
    | [k1, k2, k3], _ => rfl
  simp [zsFwd, e1, e2, e3]

theorem zsFwd_cells : (zsFwd cfg alpha base b1 reg).map ACell.cell
    = (zsFwd cfg alpha base b2 reg).map ACell.cell := by
  have e1 : (hiOut cfg alpha base b1 reg).2.map ACell.cell
      = (hiOut cfg alpha base b2 reg).2.map ACell.cell := by
    unfold hiOut
    exact (dadOut_zs ..).trans (dadOut_zs ..).symm
  have e2 : (loOut cfg alpha base b1 reg).2.map ACell.cell
      = (loOut cfg alpha base b2 reg).2.map ACell.cell := by
    unfold loOut
    exact (dadOut_zs ..).trans (dadOut_zs ..).symm
  have e3 : (coZs cfg alpha base b1 reg).map ACell.cell
      = (coZs cfg alpha base b2 reg).map ACell.cell := by
    unfold coZs
    exact loopZs_cells ..
  have e4 : (lsOut cfg alpha base b1 reg).2.cell = (lsOut cfg alpha base b2 reg).2.cell := by
    simp only [lsOut, lsbOut]
  unfold zsFwd
  simp only [List.map_append, List.map_singleton, e1, e2, e3, e4]

/-- The running sum `z_j`. -/
def zAt (j : ℕ) (hj : j < 256) : ACell C (ZMod p) :=
  (zsFwd cfg alpha base b1 reg).reverse[j]'(by rw [List.length_reverse, zsFwd_length]; exact hj)

theorem zAt_cell (j : ℕ) (hj : j < 256) :
    (zAt cfg alpha base b1 reg j hj).cell = (zAt cfg alpha base b2 reg j hj).cell := by
  have h := congrArg (fun l => l.reverse[j]?) (zsFwd_cells cfg alpha base b1 b2 reg)
  simp only [← List.map_reverse, List.getElem?_map] at h
  rw [List.getElem?_eq_getElem (by rw [List.length_reverse, zsFwd_length]; exact hj),
    List.getElem?_eq_getElem (by rw [List.length_reverse, zsFwd_length]; exact hj)] at h
  simp only [Option.map_some, Option.some.injEq] at h
  unfold zAt
  exact h

/-- All the operations of the multiplication, with the point of the incomplete additions. -/
def assignOps : List (Op C S (ZMod p)) :=
  regionOps cfg alpha base b1 reg ++ Overflow.ops cfg.overflow (reg + 1) alpha
    (zAt cfg alpha base b1 reg 0 (by norm_num)) (zAt cfg alpha base b1 reg 130 (by norm_num))
    (zAt cfg alpha base b1 reg 254 (by norm_num))

theorem assignWith_run (hp : p ≠ 2)
    (hex1 : ¬ Incomplete.Exceptional b1 (acc0 cfg base reg))
    (hex2 : ¬ Incomplete.Exceptional b1 (hiOut cfg alpha base b1 reg).1) :
    assignWith cfg alpha base b1 reg
      = some ((lsOut cfg alpha base b1 reg).1, reg + 4, assignOps cfg alpha base b1 reg) := by
  have hr := mulRegion_run cfg alpha base b1 reg hex1 hex2 (reg + 1)
  have hl : (zsFwd cfg alpha base b1 reg).reverse.length = 256 := by
    rw [List.length_reverse, zsFwd_length]
  have ho := Overflow.run (cfg := cfg.overflow) (alpha := alpha)
    (List.getElem?_eq_getElem (l := (zsFwd cfg alpha base b1 reg).reverse) (i := 0) (by omega))
    (List.getElem?_eq_getElem (i := 130) (by omega))
    (List.getElem?_eq_getElem (i := 254) (by omega)) hp (reg + 1)
  rw [assignOps, ← List.append_nil (Overflow.ops _ _ _ _ _ _)]
  refine bind_of (a := ((lsOut cfg alpha base b1 reg).1,
    (zsFwd cfg alpha base b1 reg).reverse)) (n' := reg + 1) hr ?_
  dsimp only
  rw [bind_apply, ho]
  have hend : (pure (lsOut cfg alpha base b1 reg).1 : M C S (ZMod p) _) (reg + 4)
      = some ((lsOut cfg alpha base b1 reg).1, reg + 4, []) := rfl
  dsimp only
  rw [hend]
  rfl

/-- The layout of the multiplication imposes the same constraints, whatever point the prover uses
in the incomplete additions, and returns the same cells. -/
theorem same_assign : Same (assignOps cfg alpha base b1 reg) (assignOps cfg alpha base b2 reg) ∧
    SameP (lsOut cfg alpha base b1 reg).1 (lsOut cfg alpha base b2 reg).1 := by
  have hP : SameP (lsOut cfg alpha base b1 reg).1 (lsOut cfg alpha base b2 reg).1 := by
    simp only [lsOut, lsbOut, SameP, Add.out, and_self]
  refine ⟨?_, hP⟩
  unfold assignOps
  refine Same.append (same_region cfg alpha base b1 b2 reg) ?_
  unfold Overflow.ops
  refine Same.append ?_ (Same.append ?_ ?_)
  · intro op hop
    cases op with
    | advice c v => cases hop
    | _ => simp
  · unfold LookupRange.copyCheckOps LookupRange.rangeOps
    refine Same.append ?_ (Same.append ?_ (Same.refl _))
    · intro op hop
      cases op with
      | advice c v => cases hop
      | _ => simp [Overflow.sCell]
    · intro op hop
      rw [LookupRange.mem_loopOps, LookupRange.mem_loopOps]
      cases op with
      | advice c v => cases hop
      | _ => simp [digits]
  · have h0 := zAt_cell cfg alpha base b1 b2 reg 0 (by norm_num)
    have h130 := zAt_cell cfg alpha base b1 b2 reg 130 (by norm_num)
    have h254 := zAt_cell cfg alpha base b1 b2 reg 254 (by norm_num)
    have hs : ∀ k : ACell C (ZMod p), (Overflow.smlCell cfg.overflow (reg + 1) alpha k).cell
        = ⟨reg + 2, cfg.overflow.lookup.runningSum, (13 : ℕ)⟩ := fun k =>
      (LookupRange.copyCheckCells_last 10 cfg.overflow.lookup (reg + 1 + 1)
        (Overflow.sCell cfg.overflow (reg + 1) alpha k) 13).2.2
    intro op hop
    cases op with
    | advice c v => cases hop
    | _ => simp [Overflow.lastOps, h0, h130, h254, hs]

end

end Verif.Mul
