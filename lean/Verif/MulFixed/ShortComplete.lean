import Verif.MulFixed.Sums

/-!
# Fixed-base multiplication by a short signed scalar: completeness
-/

namespace Verif.MulFixed

open Verif.Region Verif.Ecc Verif.Utilities Verif.RunningSum

variable {C S : Type} {p q : ℕ} [Fact p.Prime] [Fact q.Prime] {b : ZMod p}

theorem addOps_within (cfg : Add.Config C S) (x y : EccPoint C (ZMod p)) (reg : ℕ) :
    Within (Add.ops cfg x y reg 0 : List (Op C S (ZMod p)))
      fun c => c.row = 0 ∨ c.col = cfg.xQR ∨ c.col = cfg.yQR := by
  intro c v h
  simp only [Add.ops, Assigned, List.mem_cons, List.not_mem_nil, or_false, Op.advice.injEq,
    reduceCtorEq, false_or] at h
  rcases h with ⟨rfl, -⟩ | ⟨rfl, -⟩ | ⟨rfl, -⟩ | ⟨rfl, -⟩ | ⟨rfl, -⟩ | ⟨rfl, -⟩ |
    ⟨rfl, -⟩ | ⟨rfl, -⟩ | ⟨rfl, -⟩ | ⟨rfl, -⟩ | ⟨rfl, -⟩
  all_goals simp

/-- The columns `window`, `u` and `y_p` are different. -/
theorem Config.Distinct.window {cfg : Config C S} (h : cfg.Distinct) :
    cfg.window ≠ cfg.u ∧ cfg.window ≠ cfg.add.yP ∧ cfg.u ≠ cfg.add.yP := by
  have := h.cols
  unfold Config.columns at this
  simp only [List.nodup_cons, List.mem_cons, not_or] at this
  exact ⟨this.1.1, this.1.2.2.1, this.2.1.2.1⟩

theorem addColumns_y {cfg : Add.Config C S} (h : (addColumns cfg).Nodup) :
    cfg.yP ≠ cfg.xQR ∧ cfg.yP ≠ cfg.yQR := by
  unfold addColumns at h
  simp only [List.nodup_cons, List.mem_cons, not_or] at h
  exact ⟨h.2.1.1, h.2.1.2.1⟩

namespace Short

/-- The operations of the second region after the addition. -/
def signOps (cfg : Config C S) (sign z21 : ACell C (ZMod p)) (y : ZMod p) (reg : ℕ) :
    List (Op C S (ZMod p)) :=
  [.advice ⟨reg, cfg.super.window, 1⟩ sign.value, .equal ⟨reg, cfg.super.window, 1⟩ sign.cell,
   .advice ⟨reg, cfg.super.u, 1⟩ z21.value, .equal ⟨reg, cfg.super.u, 1⟩ z21.cell,
   .enable cfg.qMulFixedShort reg 1, .advice ⟨reg, cfg.super.add.yP, 1⟩ (signed sign.value y)]

theorem lastWindow_run (cfg : Config C S) (mulB acc : EccPoint C (ZMod p)) (sign z21 : ACell C (ZMod p))
    (reg n : ℕ) : lastWindow cfg mulB acc sign z21 reg n
      = some (⟨(Add.out cfg.super.add mulB acc reg 0).x, ⟨⟨reg, cfg.super.add.yP, 1⟩,
          signed sign.value (Add.out cfg.super.add mulB acc reg 0).y.value⟩⟩, n,
        Add.ops cfg.super.add mulB acc reg 0 ++
          signOps cfg sign z21 (Add.out cfg.super.add mulB acc reg 0).y.value reg) := by
  unfold lastWindow
  exact bind_of (Add.run cfg.super.add mulB acc reg 0 n) rfl

/-- The point of a magnitude and a sign. -/
def target (neg : Bool) (P : Pt b) : Pt b := if neg then -P else P

theorem signed_enc (hg : Good b) (hp : 2 < p) {neg : Bool} {sign x y : ZMod p} {P : Pt b}
    (hs : sign = if neg then -1 else 1) (h : enc P = (x, y)) :
    enc (target neg P) = (x, signed sign y) := by
  have h1 : (1 : ZMod p) ≠ -1 := by
    intro h
    have : ((2 : ℕ) : ZMod p) = 0 := by push_cast; linear_combination h
    rw [ZMod.natCast_eq_zero_iff] at this
    exact absurd (Nat.le_of_dvd (by norm_num) this) (by omega)
  cases neg with
  | false => simp [target, signed, hs, h, h1]
  | true => simp [target, signed, hs, enc_neg hg, h]

theorem signed_polys {neg : Bool} {sign y z : ZMod p} (hs : sign = if neg then -1 else 1) (hp : 2 < p)
    (hz : z = 0 ∨ z = 1) : ∀ f ∈ polys (signed sign y) y z sign, f = 0 := by
  have h1 : (1 : ZMod p) ≠ -1 := by
    intro h
    have : ((2 : ℕ) : ZMod p) = 0 := by push_cast; linear_combination h
    rw [ZMod.natCast_eq_zero_iff] at this
    exact absurd (Nat.le_of_dvd (by norm_num) this) (by omega)
  have hb : boolCheck z = 0 := (boolCheck_iff z).2 hz
  simp only [polys, List.mem_cons, List.not_mem_nil, or_false, forall_eq_or_imp, forall_eq]
  refine ⟨hb, ?_⟩
  cases neg with
  | false => simp [signed, hs, h1]
  | true => simp [signed, hs]

/-- **C62**, completeness: for a magnitude of 64 bits and a sign of 1 or -1 the multiplication
succeeds, assigns no cell twice, meets the constraints, and returns the signed multiple. -/
theorem assign_complete (hg : Good b) {base : FixedPoint b} (hv : base.Valid numWindowsShort)
    (hB : Large base.generator numWindowsShort) (hq : q • base.generator = 0) (hp8 : 8 < p) (hq8 : 8 ≤ q)
    {cfg : Config C S} (hc : cfg.super.Configured) (hd : cfg.super.Distinct)
    (hs : cfg.qMulFixedShort ∉ cfg.super.selectors) {magnitude sign : ACell C (ZMod p)} {neg : Bool}
    (hm : magnitude.value.val < 2 ^ 64) (hsign : sign.value = if neg then -1 else 1) (n : ℕ) :
    ∃ r zs ops, assign q cfg magnitude sign base n = some ((r, zs), n + 1 + 1, ops) ∧
      Val r (target neg (magnitude.value.val • base.generator)) ∧ Consistent ops ∧
      ∀ G, Honest G ops → G.at magnitude.cell = magnitude.value → G.at sign.cell = sign.value →
        Sat (gates b cfg) G ops ∧ Holds G r (target neg (magnitude.value.val • base.generator)) := by
  obtain ⟨d1, d2, d3⟩ := hd.ne
  simp only [Config.selectors, List.mem_cons, List.not_mem_nil, or_false, not_or] at hs
  obtain ⟨t1, t2, t3⟩ := hs
  obtain ⟨acc, mulB, o1, hrun, hvacc, hvmul, hen, hcon, hsat⟩ := sumFirst_complete (q := q) hg
    (N := numWindowsShort) (bits := lScalarShort) (by decide) (by decide) (by decide) hv hB hq hp8 hq8 hc hd
    magnitude hm n
  obtain ⟨z21, hz21⟩ : ∃ z : ACell C (ZMod p), z = ⟨⟨n, cfg.super.runningSum.z, ((21 : ℕ) : ℤ)⟩,
    ((magnitude.value.val / 8 ^ 21 : ℕ) : ZMod p)⟩ := ⟨_, rfl⟩
  have hz21b : z21.value = 0 ∨ z21.value = 1 := by
    rw [hz21]
    have : magnitude.value.val / 8 ^ 21 < 2 := by
      rw [Nat.div_lt_iff_lt_mul (by norm_num)]; exact hm
    obtain h | h : magnitude.value.val / 8 ^ 21 = 0 ∨ magnitude.value.val / 8 ^ 21 = 1 := by omega
    · left; dsimp only; rw [h]; simp
    · right; dsimp only; rw [h]; simp
  have htotal : entry base.generator numWindowsShort (numWindowsShort - 1)
        (digit magnitude.value.val (numWindowsShort - 1)) +
      psum (digit magnitude.value.val) (numWindowsShort - 1) • base.generator
        = magnitude.value.val • base.generator := by
    rw [show numWindowsShort - 1 = 21 from rfl, show numWindowsShort = 21 + 1 from rfl, total, value_digit,
      Nat.mod_eq_of_lt]
    exact lt_trans hm (by norm_num)
  obtain ⟨hadd1, hadd2⟩ := Add.complete hg (Add.run cfg.super.add mulB acc (n + 1) 0 (n + 1 + 1)) hvmul hvacc
  rw [htotal] at hadd1 hadd2
  obtain ⟨r, hr⟩ : ∃ r : EccPoint C (ZMod p), r = ⟨(Add.out cfg.super.add mulB acc (n + 1) 0).x,
    ⟨⟨n + 1, cfg.super.add.yP, 1⟩,
      signed sign.value (Add.out cfg.super.add mulB acc (n + 1) 0).y.value⟩⟩ := ⟨_, rfl⟩
  have hlast : (do
      let z21 ← unwrap (sumOf cfg.super.runningSum n magnitude.value.val numWindowsShort)[21]?
      let result ← assignRegion fun reg => lastWindow cfg mulB acc sign z21 reg
      pure (result, sumOf cfg.super.runningSum n magnitude.value.val numWindowsShort) :
        M C S (ZMod p) (EccPoint C (ZMod p) × List (ACell C (ZMod p)))) (n + 1)
      = some ((r, sumOf cfg.super.runningSum n magnitude.value.val numWindowsShort), n + 1 + 1,
        [] ++ ((Add.ops cfg.super.add mulB acc (n + 1) 0 ++
          signOps cfg sign z21 (Add.out cfg.super.add mulB acc (n + 1) 0).y.value (n + 1)) ++ [])) := by
    refine bind_of (ops₁ := []) (unwrap_of (a := z21) (by
      rw [hz21]; exact sumOf_get _ _ _ _ _ (by decide)) _) ?_
    rw [hr]
    exact bind_of (n' := n + 1 + 1) (lastWindow_run cfg mulB acc sign z21 (n + 1) (n + 1 + 1)) rfl
  obtain ⟨w1, w2, w3⟩ := hd.window
  obtain ⟨y1, y2⟩ := addColumns_y hd.addCols
  refine ⟨r, sumOf cfg.super.runningSum n magnitude.value.val numWindowsShort, _,
    bind_of (a := (sumOf cfg.super.runningSum n magnitude.value.val numWindowsShort, acc, mulB))
      (n' := n + 1) hrun hlast, ?_, ?_, ?_⟩
  · rw [hr]; exact signed_enc hg (by omega) hsign hadd1
  · refine Merkle.consistent_bind (Local.assignRegion sumFirst_acts)
      (Local.unwrap.bind fun _ => (Local.assignRegion lastWindow_acts).bind fun _ => Local.pure _)
      (n := n) hrun hlast hcon ?_
    rw [List.nil_append, List.append_nil]
    refine (addOps_consistent hd.addCols mulB acc (n + 1)).append ?_ (addOps_within _ _ _ _)
      (B := fun c => c.row = 1 ∧ (c.col = cfg.super.window ∨ c.col = cfg.super.u ∨
        c.col = cfg.super.add.yP)) ?_ ?_
    · intro c v w h h'
      simp only [signOps, Assigned, List.mem_cons, List.not_mem_nil, or_false, Op.advice.injEq,
        reduceCtorEq, false_or] at h h'
      rcases h with ⟨rfl, rfl⟩ | ⟨rfl, rfl⟩ | ⟨rfl, rfl⟩ <;> rcases h' with ⟨h, rfl⟩ | ⟨h, rfl⟩ | ⟨h, rfl⟩
      all_goals first
        | rfl
        | (exfalso; simp only [Cell.mk.injEq, true_and, and_true] at h
           first | exact w1 h | exact w1 h.symm | exact w2 h | exact w2 h.symm | exact w3 h | exact w3 h.symm)
    · intro c v h
      simp only [signOps, Assigned, List.mem_cons, List.not_mem_nil, or_false, Op.advice.injEq,
        reduceCtorEq, false_or] at h
      rcases h with ⟨rfl, -⟩ | ⟨rfl, -⟩ | ⟨rfl, -⟩
      all_goals simp
    · rintro c h ⟨h1, h2⟩
      rcases h with h | h | h
      · omega
      · rcases h2 with h2 | h2 | h2
        · exact hc.windowX (h2.symm.trans h)
        · exact hc.uX (h2.symm.trans h)
        · exact y1 (h2.symm.trans h)
      · rcases h2 with h2 | h2 | h2
        · exact hc.windowY (h2.symm.trans h)
        · exact hc.uY (h2.symm.trans h)
        · exact y2 (h2.symm.trans h)
  · intro G hG hGm hGs
    have hG1 : Honest G o1 := hG.left
    have hG2 : Honest G (Add.ops cfg.super.add mulB acc (n + 1) 0) := hG.right.right.left.left
    have hG3 : Honest G (signOps cfg sign z21 (Add.out cfg.super.add mulB acc (n + 1) 0).y.value (n + 1)) :=
      hG.right.right.left.right
    obtain ⟨s1, hhacc, hhmul, hrows⟩ := hsat G hG1 hGm
    obtain ⟨s2, hh⟩ := hadd2 G hG2 hhmul hhacc
    have e1 : G (n + 1) cfg.super.window 1 = sign.value := hG3.1 ⟨n + 1, cfg.super.window, 1⟩ _ (by simp [signOps])
    have e2 : G (n + 1) cfg.super.u 1 = z21.value := hG3.1 ⟨n + 1, cfg.super.u, 1⟩ _ (by simp [signOps])
    have e3 : G (n + 1) cfg.super.add.yP 1
        = signed sign.value (Add.out cfg.super.add mulB acc (n + 1) 0).y.value :=
      hG3.1 ⟨n + 1, cfg.super.add.yP, 1⟩ _ (by simp [signOps])
    have e4 : G.at (Add.out cfg.super.add mulB acc (n + 1) 0).y.cell
        = (Add.out cfg.super.add mulB acc (n + 1) 0).y.value := by
      have := (congrArg Prod.snd hh).symm.trans (congrArg Prod.snd hadd1)
      exact this
    have e5 : G.at z21.cell = z21.value := by
      rw [hz21]; exact hrows 21 (by decide)
    refine ⟨⟨?_, ?_, ?_, fun c v hm => hG.2 c v hm⟩, ?_⟩
    · intro g hgm r row hm
      have hcase : ((g.1 = cfg.super.runningSum.qRangeCheck ∨
            g.1 = cfg.super.addIncomplete.qAddIncomplete) ∧ .enable g.1 r row ∈ o1) ∨
          (g.1 = cfg.super.add.qAdd ∧
            .enable g.1 r row ∈ (Add.ops cfg.super.add mulB acc (n + 1) 0 : List (Op C S (ZMod p)))) ∨
          (g.1 = cfg.qMulFixedShort ∧ r = n + 1 ∧ row = 1) := by
        rcases List.mem_append.1 hm with hm | hm
        · exact .inl ⟨hen _ _ _ hm, hm⟩
        · rw [List.nil_append, List.append_nil] at hm
          rcases List.mem_append.1 hm with hm | hm
          · exact .inr (.inl ⟨addOps_enable hm, hm⟩)
          · simp [signOps] at hm
            exact .inr (.inr hm)
      rcases List.mem_cons.1 hgm with rfl | hgm
      · rcases hcase with ⟨h | h, -⟩ | ⟨h, -⟩ | ⟨-, rfl, rfl⟩
        · exact absurd h t1
        · exact absurd h t3
        · exact absurd h t2
        · intro f hf
          simp only [Grid.query, add_zero] at hf
          have e4' : G (n + 1) cfg.super.add.yQR 1
              = (Add.out cfg.super.add mulB acc (n + 1) 0).y.value := e4
          rw [e1, e2, e3, e4'] at hf
          exact signed_polys hsign (by omega) hz21b f hf
      · rcases hcase with ⟨-, hm'⟩ | ⟨h', hm'⟩ | ⟨h', -⟩
        · exact s1.gates g hgm r row hm'
        · rcases gates_cases hgm with h | ⟨h, hgg⟩ | ⟨h, -⟩
          · exact absurd (h.symm.trans h') d1
          · exact s2.gates g hgg r row hm'
          · exact absurd (h'.symm.trans h) d3
        · rcases gates_cases hgm with h | ⟨h, -⟩ | ⟨h, -⟩
          · exact absurd (h'.symm.trans h) t1
          · exact absurd (h'.symm.trans h) t2
          · exact absurd (h'.symm.trans h) t3
    · intro x y hm
      simp only [List.mem_append, List.not_mem_nil, or_false, false_or] at hm
      rcases hm with hm | hm | hm
      · exact s1.equal x y hm
      · exact s2.equal x y hm
      · simp only [signOps, List.mem_cons, List.not_mem_nil, or_false, Op.equal.injEq,
          reduceCtorEq, false_or] at hm
        rcases hm with ⟨rfl, rfl⟩ | ⟨rfl, rfl⟩
        · rw [hGs]; exact e1
        · rw [e5]; exact e2
    · intro x y hm
      simp only [List.mem_append, List.not_mem_nil, or_false, false_or] at hm
      rcases hm with hm | hm | hm
      · exact s1.const x y hm
      · exact s2.const x y hm
      · simp [signOps] at hm
    · have h := signed_enc hg (by omega) hsign hh
      rw [e4] at h
      unfold Holds
      rw [h, hr]
      refine Prod.ext rfl ?_
      exact e3.symm

/-- **C64**, completeness. -/
theorem assignScalarSign_complete (hg : Good b) (hp : 2 < p) {cfg : Config C S}
    (hcol : [cfg.super.u, cfg.super.window, cfg.super.add.yQR, cfg.super.add.yP].Nodup)
    (hs : cfg.qMulFixedShort ∉ cfg.super.selectors) {sign : ACell C (ZMod p)} {neg : Bool}
    (hsign : sign.value = if neg then -1 else 1) {point : EccPoint C (ZMod p)} {P : Pt b}
    (hP : Val point P) (n : ℕ) :
    ∃ r ops, assignScalarSign cfg sign point n = some (r, n + 1, ops) ∧ Val r (target neg P) ∧
      Consistent ops ∧
      ∀ G, Honest G ops → G.at sign.cell = sign.value → Holds G point P →
        Sat (gates b cfg) G ops ∧ Holds G r (target neg P) := by
  simp only [Config.selectors, List.mem_cons, List.not_mem_nil, or_false, not_or] at hs
  obtain ⟨t1, t2, t3⟩ := hs
  refine ⟨_, _, rfl, signed_enc hg hp hsign hP, ?_, ?_⟩
  · obtain ⟨f, hf⟩ := exists_fun (V := ℤ → ZMod p) [(cfg.super.u, fun _ => 0),
      (cfg.super.window, fun _ => sign.value), (cfg.super.add.yQR, fun _ => point.y.value),
      (cfg.super.add.yP, fun _ => signed sign.value point.y.value)] hcol
    simp only [List.mem_cons, List.not_mem_nil, or_false, forall_eq_or_imp, forall_eq] at hf
    obtain ⟨f0, f1, f2, f3⟩ := hf
    refine Written.consistent (reg := n) (f := f) fun c v h => ?_
    simp [Assigned] at h
    rcases h with ⟨rfl, rfl⟩ | ⟨rfl, rfl⟩ | ⟨rfl, rfl⟩ | ⟨rfl, rfl⟩
    · exact ⟨rfl, by rw [f0]⟩
    · exact ⟨rfl, by rw [f1]⟩
    · exact ⟨rfl, by rw [f2]⟩
    · exact ⟨rfl, by rw [f3]⟩
  · intro G hG hGs hGP
    have e0 : G n cfg.super.u 0 = 0 := hG.1 ⟨n, cfg.super.u, 0⟩ _ (by simp)
    have e1 : G n cfg.super.window 0 = sign.value := hG.1 ⟨n, cfg.super.window, 0⟩ _ (by simp)
    have e2 : G n cfg.super.add.yQR 0 = point.y.value := hG.1 ⟨n, cfg.super.add.yQR, 0⟩ _ (by simp)
    have e3 : G n cfg.super.add.yP 0 = signed sign.value point.y.value :=
      hG.1 ⟨n, cfg.super.add.yP, 0⟩ _ (by simp)
    have e4 : G.at point.y.cell = point.y.value :=
      (congrArg Prod.snd hGP).symm.trans (congrArg Prod.snd hP)
    refine ⟨⟨?_, ?_, ?_, fun c v hm => hG.2 c v hm⟩, ?_⟩
    · intro g hgm r row hm
      have hcase : g.1 = cfg.qMulFixedShort ∧ r = n ∧ row = 0 := by simpa using hm
      obtain ⟨h', rfl, rfl⟩ := hcase
      rcases List.mem_cons.1 hgm with rfl | hgm
      · intro f hf
        simp only [Grid.query, add_zero] at hf
        rw [e0, e1, e2, e3] at hf
        exact signed_polys hsign hp (.inl rfl) f hf
      · rcases gates_cases hgm with h | ⟨h, -⟩ | ⟨h, -⟩
        · exact absurd (h'.symm.trans h) t1
        · exact absurd (h'.symm.trans h) t2
        · exact absurd (h'.symm.trans h) t3
    · intro x y hm
      have hm' : (x = ⟨n, cfg.super.window, 0⟩ ∧ y = sign.cell) ∨
          (x = ⟨n, cfg.super.add.yQR, 0⟩ ∧ y = point.y.cell) := by simpa using hm
      rcases hm' with ⟨rfl, rfl⟩ | ⟨rfl, rfl⟩
      · rw [hGs]; exact e1
      · rw [e4]; exact e2
    · intro x y hm
      have hm' : x = ⟨n, cfg.super.u, 0⟩ ∧ y = 0 := by simpa using hm
      obtain ⟨rfl, rfl⟩ := hm'
      exact e0
    · have h := signed_enc hg hp hsign hGP
      rw [e4] at h
      unfold Holds
      rw [h]
      exact Prod.ext rfl e3.symm

end Short

end Verif.MulFixed
