import Verif.Sinsemilla.Props

/-!
# Examples for the Sinsemilla chip, and the exceptional case its constraints leave open
-/

namespace Verif.Sinsemilla.Example

open Verif.Region Verif.Ecc Verif.Utilities Verif.Mul Verif.Sinsemilla

instance : Fact (Nat.Prime 103) := ⟨by norm_num⟩

/-- The curve `y² = x³ + 5` over the field with 103 elements meets the hypotheses on Pallas. -/
theorem good103 : Good (5 : ZMod 103) :=
  ⟨by decide, by decide, by decide +kernel, by decide +kernel⟩

/-- Points of that curve. -/
def ptA : Pt (5 : ZMod 103) := mkPt good103 (x := 2) (y := 42) (by decide)
def ptB : Pt (5 : ZMod 103) := mkPt good103 (x := 3) (y := 49) (by decide)
def ptQ : Pt (5 : ZMod 103) := mkPt good103 (x := 6) (y := 18) (by decide)

/-- Generators. -/
def gen (w : ℕ) : Pt (5 : ZMod 103) := if w = 9 then ptQ else if w % 2 = 0 then ptA else ptB

theorem gen_ne (w : ℕ) : gen w ≠ 0 := by
  unfold gen
  split_ifs <;> intro h <;> have := congrArg (fun P => (enc P).1) h <;> revert this <;>
    simp only [ptB, ptA, ptQ, enc_mkPt, enc_zero] <;> decide

theorem ptQ_ne : ptQ ≠ 0 := gen_ne 9

/-- A configuration. -/
def cfg : Config (Fin 9) (Fin 6) where
  qS1 := 0
  qS2 := 1
  qS4 := 1
  fixedYQ := 0
  da := ⟨2, 3, 4, 5⟩
  bits := 6
  witnessPieces := 7
  range := ⟨2, 3, 4, 8, .base⟩
  allowPrivate := false

/-- A piece in a cell of another region. -/
def piece (x : ZMod 103) (n : ℕ) : Piece (Fin 9) (ZMod 103) := ⟨⟨⟨7, 7, 0⟩, x⟩, n⟩

/-- A step of the hash in coordinates. -/
theorem spec_step {b : ZMod 103} (hg : Good b) {gen : ℕ → Pt b} {A : Pt b} {w : ℕ} {ws : List ℕ}
    {xa ya xp yp : ZMod 103} (hA0 : A ≠ 0) (hP0 : gen w ≠ 0) (hA : enc A = (xa, ya))
    (hP : enc (gen w) = (xp, yp)) (h1 : xa ≠ xp) (l : ZMod 103) (hl : yp = ya - l * (xa - xp))
    (m : ZMod 103) (h2 : (l + m) * (xa - (l ^ 2 - xa - xp)) = 2 * ya) :
    ∃ R, R ≠ 0 ∧ enc R = ((rowVals (xp, yp) xa ya).2.2.1, (rowVals (xp, yp) xa ya).2.2.2) ∧
      specHash gen A (w :: ws) = specHash gen R ws := by
  have hok : StepOk (gen w) A true := row_ok hg hP0 hA0 (fun e => by
    rw [e, hP] at hA; exact h1 (Prod.mk.inj hA).1.symm) hP hA hl h2
  refine ⟨dstep (gen w) A true, ?_, (row_complete hg hok hP hA).1, stepOk_spec hok gen rfl ws⟩
  intro e
  exact hok.dbl (by rw [add_assoc]; exact e)

/-- The hash of the words 6 and 2. -/
theorem spec_62 : ∃ R, specHash gen ptQ [6, 2] = some R ∧ enc R = (97, 43) := by
  obtain ⟨R, hR0, hR, e⟩ := spec_step good103 (gen := gen) (A := ptQ) (w := 6) (ws := [2]) ptQ_ne
    (gen_ne 6) (xa := 6) (ya := 18) (xp := 2) (yp := 42) rfl rfl (by decide) 97
    (by decide +kernel) 98 (by decide +kernel)
  obtain ⟨R', -, hR', e'⟩ := spec_step good103 (gen := gen) (A := R) (w := 2) (ws := []) hR0
    (gen_ne 2) (xa := 94) (ya := 10) (xp := 2) (yp := 42) (hR.trans (by decide +kernel)) rfl
    (by decide) 31 (by decide +kernel) 51 (by decide +kernel)
  exact ⟨R', by rw [e, e']; rfl, hR'.trans (by decide +kernel)⟩

/-- The message of one piece with these words. -/
def message : List (Piece (Fin 9) (ZMod 103)) := [piece 70 2]

theorem message_fits : ∀ P ∈ message, Fits 10 5 P := by
  intro P hP
  rw [message, List.mem_singleton] at hP
  subst hP
  exact ⟨by decide, by decide, by decide⟩

/-- The hypotheses of `hashToPoint_complete` are met: the layout succeeds, and the assignment it
computes meets the constraints and has the hash, `(97, 43)`, in the output cells. -/
theorem hash_example : ∃ out zs ops, hashToPoint 10 5 (fun w => enc (gen w)) cfg ptQ message 0
      = some ((out, zs), 1, ops) ∧ (out.x.value, out.y.value) = ((97 : ZMod 103), (43 : ZMod 103)) ∧
    ∀ G : Grid (Fin 9) (ZMod 103), Honest G ops → G 7 7 0 = 70 →
      Sat (gates cfg) G ops ∧ (∀ reg, SatLookup (lookup 5 (fun w => enc (gen w)) cfg) G ops reg) ∧
      (G.at out.x.cell, G.at out.y.cell) = ((97 : ZMod 103), (43 : ZMod 103)) := by
  obtain ⟨R, hR, hRe⟩ := spec_62
  obtain ⟨out, zs, ops, h1, h2, h3⟩ := hashToPoint_complete good103 (reprBits := 10) (K := 5) le_rfl
    (gen := gen) (cfg := cfg) (by decide) (message := message) (by decide) message_fits ptQ_ne
    (R := R) hR 0
  refine ⟨out, zs, ops, h1, by rw [← hRe]; exact h2.symm, fun G hG h7 => ?_⟩
  obtain ⟨a, b, c⟩ := h3 G hG (by
    intro P hP
    rw [message, List.mem_singleton] at hP
    subst hP
    exact h7)
  exact ⟨a, b, by rw [← hRe]; exact c.symm⟩

/-! ## The exceptional case

`merkle/chip.rs` 262-266 and the documentation say that an exceptional case raises an error in
synthesis.  It is not so when the accumulator meets the generator: the slope computed is `0`, no
error is raised, the constraints are met, and they are also met with any other slope. -/

/-- The word 9, whose generator is `Q`. -/
def message9 : List (Piece (Fin 9) (ZMod 103)) := [piece 9 1]

/-- An assignment of the region of the hash, with slopes `l` and `m` and result `(x, y)`. -/
def cheat (l m x y : ZMod 103) : Grid (Fin 9) (ZMod 103) := fun reg col row =>
  if reg = 7 then 9 else
  match col, row with
  | 0, 0 => 18
  | 1, 0 => 2
  | 2, 0 => 6
  | 2, 1 => x
  | 3, 0 => 6
  | 4, 0 => l
  | 4, 1 => y
  | 5, 0 => m
  | 6, 0 => 9
  | _, _ => 0

/-- The layout for the message. -/
def cheatOps : List (Op (Fin 9) (Fin 6) (ZMod 103)) :=
  publicOps cfg 0 ptQ ++ hashOps 10 5 (fun w => enc (gen w)) cfg 0 0 message9 (6, 18)

theorem cheatOps_eq : cheatOps =
    [.enable 1 0 0, .fixed ⟨0, 0, 0⟩ 18, .advice ⟨0, 2, 0⟩ 6, .const ⟨0, 2, 0⟩ 6,
     .enable 0 0 0, .fixed ⟨0, 1, 0⟩ 2, .advice ⟨0, 6, 0⟩ 9, .equal ⟨0, 6, 0⟩ ⟨7, 7, 0⟩,
     .advice ⟨0, 3, 0⟩ 6, .advice ⟨0, 4, 0⟩ 0, .advice ⟨0, 5, 0⟩ 2, .advice ⟨0, 2, 1⟩ 10,
     .advice ⟨0, 4, 1⟩ 77, .advice ⟨0, 5, 1⟩ 0, .advice ⟨0, 3, 1⟩ 0] := by
  decide +kernel

theorem cheat_sat {l m x y : ZMod 103}
    (h : ∀ g ∈ gates (F := ZMod 103) cfg, ∀ f ∈ g.2 ((cheat l m x y).query 0 0), f = 0)
    (hy : cfg.da.YA ((cheat l m x y).query 0 0) 0 * 2⁻¹ = 18) :
    Sat (gates cfg) (cheat l m x y) cheatOps ∧
      (∀ reg, SatLookup (lookup 5 (fun w => enc (gen w)) cfg) (cheat l m x y) cheatOps reg) ∧
      cheat l m x y 7 7 0 = 9 := by
  rw [cheatOps_eq]
  refine ⟨⟨?_, ?_, ?_, ?_⟩, ?_, rfl⟩
  · intro g hg reg row hm
    simp only [List.mem_cons, reduceCtorEq, List.not_mem_nil, or_false, false_or,
      Op.enable.injEq] at hm
    rcases hm with ⟨-, rfl, rfl⟩ | ⟨-, rfl, rfl⟩ <;> exact h g hg
  · intro a c hm
    simp only [List.mem_cons, reduceCtorEq, List.not_mem_nil, or_false, false_or,
      Op.equal.injEq] at hm
    obtain ⟨rfl, rfl⟩ := hm
    rfl
  · intro c v hm
    simp only [List.mem_cons, reduceCtorEq, List.not_mem_nil, or_false, false_or,
      Op.const.injEq] at hm
    obtain ⟨rfl, rfl⟩ := hm
    rfl
  · intro c v hm
    simp only [List.mem_cons, reduceCtorEq, List.not_mem_nil, or_false, false_or,
      Op.fixed.injEq] at hm
    rcases hm with ⟨rfl, rfl⟩ | ⟨rfl, rfl⟩ <;> rfl
  · intro reg row
    by_cases hr : reg = 0 ∧ row = 0
    · obtain ⟨rfl, rfl⟩ := hr
      refine (lookup_on 5 _ cfg le_rfl (LookupRange.selectors_on (by simp [cfg]))).2
        ⟨9, by norm_num, ?_, rfl, ?_⟩
      · change (9 : ZMod 103) - (2 - 2 * (2 - 1)) * 0 * ((2 ^ 5 : ℕ) : ZMod 103) = ((9 : ℕ) : ZMod 103)
        decide +kernel
      · rw [hy]
        change 18 - l * (6 - 6) = (enc (gen 9)).2
        rw [sub_self, mul_zero, sub_zero]
        rfl
    · refine lookup_off 5 _ cfg le_rfl (LookupRange.selectors_off ?_)
      simp only [List.mem_cons, reduceCtorEq, List.not_mem_nil, or_false, false_or,
        Op.enable.injEq, cfg]
      tauto

/-- The word is the one whose generator is `Q`, synthesis succeeds, and two assignments with the same
message meet all constraints, with different results: the hash is not determined. -/
theorem collision_unsound : ∃ out ops, hashToPoint 10 5 (fun w => enc (gen w)) cfg ptQ message9 0
      = some (out, 1, ops) ∧ ∃ G G' : Grid (Fin 9) (ZMod 103),
    (∀ H ∈ [G, G'], Sat (gates cfg) H ops ∧
      (∀ reg, SatLookup (lookup 5 (fun w => enc (gen w)) cfg) H ops reg) ∧ H 7 7 0 = 9) ∧
    Honest G ops ∧ G.at out.1.x.cell ≠ G'.at out.1.x.cell := by
  have hrun : hashToPoint 10 5 (fun w => enc (gen w)) cfg ptQ message9 0
      = some ((hashOut 10 5 (fun w => enc (gen w)) cfg 0 0 message9 (6, 18),
        piecesZs 10 5 cfg 0 0 message9), 1, cheatOps) := by
    unfold hashToPoint assignRegion
    exact bind_of (publicInit_run cfg 0 ptQ_ne 1) (hashFrom_run (offset := 0)
      (xa := ⟨⟨0, 2, 0⟩, 6⟩) rfl (fun P hP => by
        rw [message9, List.mem_singleton] at hP
        subst hP
        exact Fits.ok (by decide) ⟨by decide, by decide, by decide⟩)
      (by decide +kernel) (by decide +kernel) 1)
  refine ⟨_, _, hrun, cheat 0 2 10 77, cheat 1 92 23 66, ?_, ?_, ?_⟩
  · intro H hH
    simp only [List.mem_cons, List.not_mem_nil, or_false] at hH
    rcases hH with rfl | rfl
    · exact cheat_sat (by decide +kernel) (by decide +kernel)
    · exact cheat_sat (by decide +kernel) (by decide +kernel)
  · rw [cheatOps_eq]
    constructor
    · intro c v hm
      simp only [List.mem_cons, reduceCtorEq, List.not_mem_nil, or_false, false_or,
        Op.advice.injEq] at hm
      rcases hm with ⟨rfl, rfl⟩ | ⟨rfl, rfl⟩ | ⟨rfl, rfl⟩ | ⟨rfl, rfl⟩ | ⟨rfl, rfl⟩ | ⟨rfl, rfl⟩ |
        ⟨rfl, rfl⟩ | ⟨rfl, rfl⟩ | ⟨rfl, rfl⟩ <;> rfl
    · intro c v hm
      simp only [List.mem_cons, reduceCtorEq, List.not_mem_nil, or_false, false_or,
        Op.fixed.injEq] at hm
      rcases hm with ⟨rfl, rfl⟩ | ⟨rfl, rfl⟩ <;> rfl
  · decide +kernel

end Verif.Sinsemilla.Example
