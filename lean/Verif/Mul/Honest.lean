import Verif.Mul.Sound

/-!
# Variable-base scalar multiplication: the honest prover
-/

namespace Verif.Mul

open Verif.Region Verif.Ecc Verif.Utilities Verif.RunningSum

variable {C S : Type}

/-! ## Gates and selectors -/

theorem _root_.Verif.Region.Sat.widen {F : Type} [Zero F] {gs gs' : Gates C S F} {G : Grid C F} {ops : List (Op C S F)}
    (h : Sat gs' G ops)
    (hw : ∀ g ∈ gs, ∀ reg row, .enable g.1 reg row ∈ ops → g ∈ gs') : Sat gs G ops :=
  ⟨fun g hg reg row hm => h.gates g (hw g hg reg row hm) reg row hm, h.equal, h.const, h.fixed⟩

section

variable {F : Type} [Field F]

theorem gates_names (cfg : Config C S) : (gates cfg : Gates C S F).map Prod.fst
    = [cfg.add.qAdd, cfg.hi.qMul1, cfg.hi.qMul2, cfg.hi.qMul3, cfg.lo.qMul1, cfg.lo.qMul2,
      cfg.lo.qMul3, cfg.complete.qMulDecomposeVar, cfg.qMulLsb, cfg.overflow.qMulOverflow,
      cfg.overflow.lookup.qBitshift] := rfl

theorem Config.Ok.names {cfg : Config C S} (h : cfg.Ok) :
    ((gates cfg : Gates C S F).map Prod.fst).Nodup := by
  rw [gates_names]
  refine h.sels.sublist ?_
  repeat apply List.Sublist.cons_cons
  apply List.Sublist.cons
  apply List.Sublist.cons
  exact List.Sublist.refl _

/-- A gate is determined by its selector. -/
theorem Config.Ok.own {cfg : Config C S} (h : cfg.Ok) {g g' : S × ((C → ℤ → F) → List F)}
    (hg : g ∈ (gates cfg : Gates C S F)) (hg' : g' ∈ (gates cfg : Gates C S F)) (e : g.1 = g'.1) :
    g = g' :=
  List.inj_on_of_nodup_map h.names hg hg' e

/-- The selectors are distinct. -/
theorem Config.Ok.ne {cfg : Config C S} (h : cfg.Ok) (i j : ℕ) (hi : i < 13) (hj : j < 13)
    (hij : i ≠ j) : [cfg.add.qAdd, cfg.hi.qMul1, cfg.hi.qMul2, cfg.hi.qMul3, cfg.lo.qMul1,
      cfg.lo.qMul2, cfg.lo.qMul3, cfg.complete.qMulDecomposeVar, cfg.qMulLsb,
      cfg.overflow.qMulOverflow, cfg.overflow.lookup.qLookup, cfg.overflow.lookup.qRunning,
      cfg.overflow.lookup.qBitshift][i]'hi ≠ [cfg.add.qAdd, cfg.hi.qMul1, cfg.hi.qMul2,
      cfg.hi.qMul3, cfg.lo.qMul1, cfg.lo.qMul2, cfg.lo.qMul3, cfg.complete.qMulDecomposeVar,
      cfg.qMulLsb, cfg.overflow.qMulOverflow, cfg.overflow.lookup.qLookup,
      cfg.overflow.lookup.qRunning, cfg.overflow.lookup.qBitshift][j]'hj :=
  fun e => hij ((h.sels.getElem_inj_iff).1 e)

/-- The selector of the lookup is not one of the region's. -/
theorem Config.Ok.lookup_notin {cfg : Config C S} (h : cfg.Ok) :
    cfg.overflow.lookup.qLookup ∉ [cfg.add.qAdd, cfg.hi.qMul1, cfg.hi.qMul2, cfg.hi.qMul3,
      cfg.lo.qMul1, cfg.lo.qMul2, cfg.lo.qMul3, cfg.complete.qMulDecomposeVar,
      cfg.complete.add.qAdd, cfg.qMulLsb] := by
  rw [h.add_eq]
  intro hm
  simp only [List.mem_cons, List.not_mem_nil, or_false] at hm
  rcases hm with e | e | e | e | e | e | e | e | e | e
  · exact h.ne 10 0 (by decide) (by decide) (by decide) e
  · exact h.ne 10 1 (by decide) (by decide) (by decide) e
  · exact h.ne 10 2 (by decide) (by decide) (by decide) e
  · exact h.ne 10 3 (by decide) (by decide) (by decide) e
  · exact h.ne 10 4 (by decide) (by decide) (by decide) e
  · exact h.ne 10 5 (by decide) (by decide) (by decide) e
  · exact h.ne 10 6 (by decide) (by decide) (by decide) e
  · exact h.ne 10 7 (by decide) (by decide) (by decide) e
  · exact h.ne 10 0 (by decide) (by decide) (by decide) e
  · exact h.ne 10 8 (by decide) (by decide) (by decide) e

/-- No gate has the selector of the lookup. -/
theorem Config.Ok.no_lookup {cfg : Config C S} (h : cfg.Ok) {g : S × ((C → ℤ → F) → List F)}
    (hg : g ∈ (gates cfg : Gates C S F)) :
    g.1 ≠ cfg.overflow.lookup.qLookup ∧ g.1 ≠ cfg.overflow.lookup.qRunning := by
  have hm := List.mem_map_of_mem (f := Prod.fst) hg
  rw [gates_names] at hm
  have hs : (([cfg.add.qAdd, cfg.hi.qMul1, cfg.hi.qMul2, cfg.hi.qMul3, cfg.lo.qMul1, cfg.lo.qMul2,
    cfg.lo.qMul3, cfg.complete.qMulDecomposeVar, cfg.qMulLsb, cfg.overflow.qMulOverflow] ++
    [cfg.overflow.lookup.qLookup, cfg.overflow.lookup.qRunning]) ++
    [cfg.overflow.lookup.qBitshift]).Nodup := h.sels
  have hm' : g.1 ∈ [cfg.add.qAdd, cfg.hi.qMul1, cfg.hi.qMul2, cfg.hi.qMul3, cfg.lo.qMul1,
    cfg.lo.qMul2, cfg.lo.qMul3, cfg.complete.qMulDecomposeVar, cfg.qMulLsb,
    cfg.overflow.qMulOverflow] ++ [cfg.overflow.lookup.qBitshift] := hm
  rw [List.nodup_append] at hs
  obtain ⟨hs1, -, hs2⟩ := hs
  rw [List.nodup_append] at hs1
  rcases List.mem_append.1 hm' with hm' | hm'
  · exact ⟨hs1.2.2 _ hm' _ (by simp), hs1.2.2 _ hm' _ (by simp)⟩
  · exact ⟨(hs2 _ (by simp) _ hm').symm, (hs2 _ (by simp) _ hm').symm⟩

end

variable {p : ℕ} [Fact p.Prime] {b : ZMod p}

/-- The point reached when the incomplete additions use `P'`. -/
noncomputable def resultWith (alpha : ACell C (ZMod p)) (P P' : Pt b) : Pt b :=
  lsbPt (bLsb alpha) P +
    dadd P (dadd P' (2 • P) (bHi alpha ++ bLo alpha)) (bCo alpha)

theorem dad_out_eq {F : Type} [Field F] [DecidableEq F] {b : F} (hg : Good b) {numBits : ℕ}
    (hn : 0 < numBits) {cfg : Incomplete.Config C S}
    (h12 : cfg.qMul1 ≠ cfg.qMul2) (h13 : cfg.qMul1 ≠ cfg.qMul3) (h23 : cfg.qMul2 ≠ cfg.qMul3)
    {reg offset : ℕ} {base : EccPoint C F} {bits : List Bool} {acc : EccPoint C F} {z : ACell C F}
    (hlen : bits.length = numBits) {P A : Pt b} (hP : Val base P) (hA : Val acc A)
    (hnd : NonDeg P A bits) :
    ¬ Incomplete.Exceptional base acc ∧
      Val (Incomplete.dadOut numBits cfg reg offset base bits acc z).1 (dadd P A bits) ∧
      (Incomplete.dadOut numBits cfg reg offset base bits acc z).2.map ACell.value
        = zRun z.value bits ∧
      ∀ G, Honest G (Incomplete.dadOps numBits cfg reg offset base bits acc z) → Holds G acc A →
        G.at z.cell = z.value →
        Sat (Incomplete.gates cfg) G (Incomplete.dadOps numBits cfg reg offset base bits acc z) ∧
        Holds G (Incomplete.dadOut numBits cfg reg offset base bits acc z).1 (dadd P A bits) ∧
        ∀ c ∈ (Incomplete.dadOut numBits cfg reg offset base bits acc z).2,
          G.at c.cell = c.value := by
  obtain ⟨out, ops, h, h'⟩ := Incomplete.dad_complete hg hn h12 h13 h23 (reg := reg)
    (offset := offset) (z := z) hlen hP hA hnd 0
  have hex := (Incomplete.dad_some h).2
  rw [Incomplete.dad_run hlen hex] at h
  cases h
  exact ⟨hex, h'⟩

theorem co_out_eq {F : Type} [Field F] [DecidableEq F] {b : F} (hg : Good b) {len : ℕ}
    {cfg : Complete.Config C S} (hsel : cfg.qMulDecomposeVar ≠ cfg.add.qAdd) {reg offset : ℕ}
    {bits : List Bool} {base acc : EccPoint C F} {z : ACell C F} (hlen : bits.length = len)
    {P A : Pt b} (hP : Val base P) (hA : Val acc A) :
    Val (Complete.loopAcc cfg reg base offset acc bits) (dadd P A bits) ∧
      (Complete.loopZs cfg reg offset z.value bits).map ACell.value = zRun z.value bits ∧
      ∀ G, Honest G (Complete.ops len cfg reg offset bits base acc z) → Holds G base P →
        Holds G acc A → G.at z.cell = z.value →
        Sat (Add.gates cfg.add ++ Complete.gates cfg) G
          (Complete.ops len cfg reg offset bits base acc z) ∧
        Holds G (Complete.loopAcc cfg reg base offset acc bits) (dadd P A bits) ∧
        ∀ c ∈ Complete.loopZs cfg reg offset z.value bits, G.at c.cell = c.value := by
  obtain ⟨out, ops, h, h'⟩ := Complete.complete hg hsel (reg := reg) (offset := offset) (z := z)
    hlen hP hA 0
  rw [Complete.run hlen] at h
  cases h
  exact h'

theorem region_complete (hg : Good b) {cfg : Config C S} (hok : cfg.Ok) {alpha : ACell C (ZMod p)}
    {base baseInc : EccPoint C (ZMod p)} (reg : ℕ) {P P' : Pt b} (hP : Val base P)
    (hP' : Val baseInc P') (hnd : NonDeg P' (2 • P) (bHi alpha ++ bLo alpha)) :
    ¬ Incomplete.Exceptional baseInc (acc0 cfg base reg) ∧
    ¬ Incomplete.Exceptional baseInc (hiOut cfg alpha base baseInc reg).1 ∧
    Val (lsOut cfg alpha base baseInc reg).1 (resultWith alpha P P') ∧
    (zsFwd cfg alpha base baseInc reg).map ACell.value
      = 0 :: zRun 0 (decomposeForScalarMul alpha.value) ∧
    ∀ G, Honest G (regionOps cfg alpha base baseInc reg) → Holds G base P →
      Sat (gates cfg) G (regionOps cfg alpha base baseInc reg) ∧
      Holds G (lsOut cfg alpha base baseInc reg).1 (resultWith alpha P P') ∧
      ∀ c ∈ zsFwd cfg alpha base baseInc reg, G.at c.cell = c.value := by
  obtain ⟨lH, lL, l1⟩ := mem_last (cfg := cfg) (alpha := alpha) (base := base)
    (baseInc := baseInc) (reg := reg)
  obtain ⟨hndH, hndL⟩ := nonDeg_append hnd
  -- doubling
  obtain ⟨vA, cA⟩ := Add.complete hg (Add.run cfg.add base base reg 0 0) hP hP
  rw [← two_nsmul] at vA cA
  -- first half
  obtain ⟨exH, vH, zH', cH⟩ := dad_out_eq hg (numBits := hiLen) (by decide) (cfg := cfg.hi)
    (hok.ne 1 2 (by decide) (by decide) (by decide))
    (hok.ne 1 3 (by decide) (by decide) (by decide))
    (hok.ne 2 3 (by decide) (by decide) (by decide)) (reg := reg) (offset := 1) (z := zI cfg reg)
    (bHi_length alpha) hP' vA hndH
  -- second half
  obtain ⟨exL, vL, zL', cL⟩ := dad_out_eq hg (numBits := loLen) (by decide) (cfg := cfg.lo)
    (hok.ne 4 5 (by decide) (by decide) (by decide))
    (hok.ne 4 6 (by decide) (by decide) (by decide))
    (hok.ne 5 6 (by decide) (by decide) (by decide)) (reg := reg) (offset := 1)
    (z := zH cfg alpha base baseInc reg) (bLo_length alpha) hP' vH hndL
  -- complete additions
  obtain ⟨vC, zC', cC⟩ := co_out_eq hg (len := numCompleteBits) (cfg := cfg.complete)
    (by rw [hok.add_eq]; exact hok.ne 7 0 (by decide) (by decide) (by decide)) (reg := reg) (offset := 129)
    (z := zL cfg alpha base baseInc reg) (bCo_length alpha) hP vL
  -- the last bit
  obtain ⟨vk, ck⟩ := processLsb_complete hg (cfg := cfg)
    (hok.ne 8 0 (by decide) (by decide) (by decide)) (reg := reg) (offset := 135)
    (z1 := z1 cfg alpha base baseInc reg) (lsb := bLsb alpha) rfl hP vC
  have eR : resultWith alpha P P' = lsbPt (bLsb alpha) P +
      dadd P (dadd P' (dadd P' (2 • P) (bHi alpha)) (bLo alpha)) (bCo alpha) := by
    rw [resultWith, dadd_append]
  rw [eR]
  refine ⟨exH, exL, vk, ?_, fun G hG hGP => ?_⟩
  · have vHv := last_value (f := ACell.value) lH zH'
    have vLv := last_value (f := ACell.value) lL zL'
    have v1v := last_value (f := ACell.value) l1 zC'
    have hz0 : (zI cfg reg : ACell C (ZMod p)).value = 0 := rfl
    rw [hz0] at zH' vHv
    rw [vHv] at zL' vLv
    have zsC' : (coZs cfg alpha base baseInc reg).map ACell.value = _ := zC'
    rw [vLv] at zsC' v1v
    have e0 : zRun (0 : ZMod p) (decomposeForScalarMul alpha.value)
        = zRun 0 (bHi alpha) ++ zRun (zEnd 0 (bHi alpha)) (bLo alpha) ++
        zRun (zEnd (zEnd 0 (bHi alpha)) (bLo alpha)) (bCo alpha) ++
        [2 * zEnd (zEnd (zEnd 0 (bHi alpha)) (bLo alpha)) (bCo alpha)
          + Incomplete.bitVal (bLsb alpha)] := by
      have ez : ∀ (z : ZMod p) (as bs : List Bool), zEnd z (as ++ bs) = zEnd (zEnd z as) bs :=
        fun z as bs => by simp only [zEnd, List.foldl_append]
      rw [← bits_eq, zEnd_eq, zRun_append, zRun_append, ez, ez, ez]
    have vk' : (lsOut cfg alpha base baseInc reg).2.value
      = (z1 cfg alpha base baseInc reg).value * 2 + Incomplete.bitVal (bLsb alpha) := by
      unfold lsOut lsbOut; dsimp only
    have zsH' : (hiOut cfg alpha base baseInc reg).2.map ACell.value = _ := zH'
    have zsL' : (loOut cfg alpha base baseInc reg).2.map ACell.value = _ := zL'
    have v1' : (z1 cfg alpha base baseInc reg).value = _ := v1v
    unfold zsFwd
    simp only [List.map_append, List.map_singleton]
    rw [hz0, zsH', zsL', zsC', vk', v1', e0, mul_comm _ (2 : ZMod p)]
    simp
  · unfold regionOps at hG ⊢
    have gz : G.at (zI cfg reg : ACell C (ZMod p)).cell = 0 :=
      hG.right.left.1 _ _ (by simp [zI])
    obtain ⟨sA, hA⟩ := cA G hG.left hGP hGP
    obtain ⟨sH, hH, zcH⟩ := cH G hG.right.right.left hA gz
    have zHc : G.at (zH cfg alpha base baseInc reg).cell = _ :=
      zcH _ (List.mem_of_mem_getLast? lH)
    obtain ⟨sL, hL, zcL⟩ := cL G hG.right.right.right.left hH zHc
    have zLc : G.at (zL cfg alpha base baseInc reg).cell = _ :=
      zcL _ (List.mem_of_mem_getLast? lL)
    obtain ⟨sC, hC, zcC⟩ := cC G hG.right.right.right.right.left hGP hL zLc
    have z1c : G.at (z1 cfg alpha base baseInc reg).cell = _ :=
      zcC _ (List.mem_of_mem_getLast? l1)
    obtain ⟨sk, hk, zk⟩ := ck G hG.right.right.right.right.right hGP hC z1c
    refine ⟨?_, hk, ?_⟩
    · refine Sat.append (sA.widen ?_) (Sat.append ⟨?_, ?_, ?_, ?_⟩ (Sat.append (sH.widen ?_)
        (Sat.append (sL.widen ?_) (Sat.append (sC.widen ?_) (sk.widen ?_)))))
      · intro g hgm r row hm
        obtain rfl := hok.own hgm (sub_add cfg _ (List.mem_singleton.2 rfl)) (addOps_enables hm).1
        exact List.mem_singleton.2 rfl
      · intro g _ r row hm; simp at hm
      · intro x y hm; simp at hm
      · intro x v hm
        simp only [List.mem_cons, reduceCtorEq, Op.const.injEq, List.not_mem_nil, or_false,
          false_or] at hm
        obtain ⟨rfl, rfl⟩ := hm
        exact gz
      · intro x v hm; simp at hm
      · intro g hgm r row hm
        rcases (dadOps_enables hm).1 with e | e | e
        · have hin : _ ∈ (Incomplete.gates cfg.hi : Gates C S (ZMod p)) := .head _
          obtain rfl := hok.own hgm (sub_hi cfg _ hin) e
          exact hin
        · have hin : _ ∈ (Incomplete.gates cfg.hi : Gates C S (ZMod p)) := .tail _ (.head _)
          obtain rfl := hok.own hgm (sub_hi cfg _ hin) e
          exact hin
        · have hin : _ ∈ (Incomplete.gates cfg.hi : Gates C S (ZMod p)) :=
            .tail _ (.tail _ (.head _))
          obtain rfl := hok.own hgm (sub_hi cfg _ hin) e
          exact hin
      · intro g hgm r row hm
        rcases (dadOps_enables hm).1 with e | e | e
        · have hin : _ ∈ (Incomplete.gates cfg.lo : Gates C S (ZMod p)) := .head _
          obtain rfl := hok.own hgm (sub_lo cfg _ hin) e
          exact hin
        · have hin : _ ∈ (Incomplete.gates cfg.lo : Gates C S (ZMod p)) := .tail _ (.head _)
          obtain rfl := hok.own hgm (sub_lo cfg _ hin) e
          exact hin
        · have hin : _ ∈ (Incomplete.gates cfg.lo : Gates C S (ZMod p)) :=
            .tail _ (.tail _ (.head _))
          obtain rfl := hok.own hgm (sub_lo cfg _ hin) e
          exact hin
      · intro g hgm r row hm
        rcases (completeOps_enables hm).1 with e | e
        · obtain rfl := hok.own hgm (sub_complete cfg _ (List.mem_singleton.2 rfl)) e
          exact List.mem_append_right _ (List.mem_singleton.2 rfl)
        · rw [hok.add_eq] at e ⊢
          obtain rfl := hok.own hgm (sub_add cfg _ (List.mem_singleton.2 rfl)) e
          exact List.mem_append_left _ (List.mem_singleton.2 rfl)
      · intro g hgm r row hm
        rcases (lsbOps_enables hm).1 with e | e
        · obtain rfl := hok.own hgm (sub_lsb cfg _ (List.mem_singleton.2 rfl)) e
          exact List.mem_append_right _ (List.mem_singleton.2 rfl)
        · obtain rfl := hok.own hgm (sub_add cfg _ (List.mem_singleton.2 rfl)) e
          exact List.mem_append_left _ (List.mem_singleton.2 rfl)
    · intro c hc
      simp only [zsFwd, List.mem_append, List.mem_singleton] at hc
      rcases hc with (((rfl | hc) | hc) | hc) | rfl
      · exact gz
      · exact zcH c hc
      · exact zcL c hc
      · exact zcC c hc
      · exact zk

/-- The values of the running sums are right. -/
theorem zs_value_eq {cfg : Config C S} {alpha : ACell C (ZMod p)}
    {base baseInc : EccPoint C (ZMod p)} {reg : ℕ} (hα : alpha.value.val + T_Q < 2 ^ 255)
    (h : (zsFwd cfg alpha base baseInc reg).map ACell.value
      = 0 :: zRun 0 (decomposeForScalarMul alpha.value)) (j : ℕ) (c : ACell C (ZMod p))
    (hc : (zsFwd cfg alpha base baseInc reg).reverse[j]? = some c) :
    c.value = (((alpha.value.val + T_Q) / 2 ^ j : ℕ) : ZMod p) := by
  rw [← ofBits_decompose alpha.value hα]
  exact zs_values h hc

/-- The run of `assign`, whatever point on the curve is used in the incomplete additions (the
exceptional cases excepted), and what the constraints say about it. -/
theorem assignWith_complete (hp : 2 ^ 254 < p) (hpT : p + T_Q ≤ 2 ^ 254 + 2 ^ 130) (hg : Good b)
    {cfg : Config C S} (hok : cfg.Ok) {alpha : ACell C (ZMod p)}
    {base baseInc : EccPoint C (ZMod p)} (n : ℕ) {P P' : Pt b} (hP : Val base P)
    (hP' : Val baseInc P') (hnd : NonDeg P' (2 • P) (bHi alpha ++ bLo alpha)) :
    ∃ r ops, assignWith cfg alpha base baseInc n = some (r, n + 4, ops) ∧
      Val r (resultWith alpha P P') ∧
      ∀ G, Honest G ops → Holds G base P → G.at alpha.cell = alpha.value →
        Sat (gates cfg) G ops ∧
        (∀ reg, SatLookup (LookupRange.lookup 10 cfg.overflow.lookup) G ops reg) ∧
        Holds G r (resultWith alpha P P') := by
  obtain ⟨ex1, ex2, v, zv, c⟩ := region_complete hg hok n hP hP' hnd
  have hr := mulRegion_run cfg alpha base baseInc n ex1 ex2 (n + 1)
  have hα : alpha.value.val + T_Q < 2 ^ 255 := by
    have := alpha.value.val_lt
    have h1 : 2 ^ 254 + 2 ^ 130 < 2 ^ 255 := by norm_num
    omega
  have hzl : (zsFwd cfg alpha base baseInc n).reverse.length = 256 := by
    have := congrArg List.length zv
    rw [List.length_map, List.length_cons, zRun_length, decompose_length] at this
    rw [List.length_reverse]; omega
  obtain ⟨os, ho, hen, hoc⟩ := Overflow.complete hp hpT hok.lookup
    ⟨hok.ne 9 10 (by decide) (by decide) (by decide), hok.ne 9 11 (by decide) (by decide) (by decide),
      hok.ne 9 12 (by decide) (by decide) (by decide)⟩ (n + 1) rfl (by rw [hzl]; norm_num) (zs_value_eq hα zv)
  refine ⟨_, regionOps cfg alpha base baseInc n ++ (os ++ []), ?_, v, ?_⟩
  · refine bind_of (a := ((lsOut cfg alpha base baseInc n).1,
      (zsFwd cfg alpha base baseInc n).reverse)) (n' := n + 1) hr ?_
    have hend : (pure (lsOut cfg alpha base baseInc n).1 : M C S (ZMod p) _) (n + 4)
      = some ((lsOut cfg alpha base baseInc n).1, n + 4, []) := rfl
    dsimp only
    rw [bind_apply, ho]
    dsimp only
    rw [hend]
  · intro G hG hGP hGα
    rw [List.append_nil] at hG ⊢
    obtain ⟨s, h, zc⟩ := c G hG.left hGP
    have hen' : ∀ q r row, .enable q r row ∈ regionOps cfg alpha base baseInc n → r = n ∧
        q ≠ cfg.overflow.lookup.qLookup := by
      intro q r row hm
      obtain ⟨h1, h2⟩ := regionOps_enables hm
      exact ⟨h1, fun e => hok.lookup_notin (e ▸ h2)⟩
    obtain ⟨s', l⟩ := hoc (regionOps cfg alpha base baseInc n ++ os)
      (fun op hm => List.mem_append_right _ hm)
      (fun q row hm => by
        rcases List.mem_append.1 hm with hm | hm
        · have := (hen' _ _ _ hm).1
          omega
        · exact hm) G hG.right hGα (fun c hc => zc c (List.mem_reverse.1 hc))
    refine ⟨s.append (s'.widen ?_), ?_, h⟩
    · intro g hgm r row hm
      rcases hen _ _ _ hm with ⟨e, -⟩ | ⟨e, -⟩ | e
      · exact absurd e (hok.no_lookup hgm).1
      · exact absurd e (hok.no_lookup hgm).2
      · have hin : _ ∈ (Overflow.gates cfg.overflow ++
          LookupRange.gates 10 cfg.overflow.lookup : Gates C S (ZMod p)) := .head _
        obtain rfl := hok.own hgm (sub_overflow cfg _ hin) e
        exact hin
    · intro reg
      by_cases hreg : reg = n + 1 + 1
      · subst hreg; exact l
      · intro row
        refine LookupRange.lookup_off 10 _ (LookupRange.selectors_off fun hm => ?_)
        rcases List.mem_append.1 hm with hm | hm
        · exact (hen' _ _ _ hm).2 rfl
        · rcases hen _ _ _ hm with ⟨-, e⟩ | ⟨-, e⟩ | e
          · exact hreg e
          · exact hreg e
          · exact hok.ne 10 9 (by decide) (by decide) (by decide) e

/-- **C41**, completeness: the honest prover's assignment satisfies all the constraints, and the
result is `[α] P`. -/
theorem assign_complete (hp : 2 ^ 254 < p) (hpT : p + T_Q ≤ 2 ^ 254 + 2 ^ 130) (hg : Good b)
    {cfg : Config C S} (hok : cfg.Ok) (hq : order.Prime) {alpha : ACell C (ZMod p)}
    {base : EccPoint C (ZMod p)} (n : ℕ) {P : Pt b} (hP : Val base P) (hP0 : P ≠ 0)
    (hord : order • P = 0) :
    ∃ r ops, assign cfg alpha base n = some (r, n + 4, ops) ∧ Val r (alpha.value.val • P) ∧
      ∀ G, Honest G ops → Holds G base P → G.at alpha.cell = alpha.value →
        Sat (gates cfg) G ops ∧
        (∀ reg, SatLookup (LookupRange.lookup 10 cfg.overflow.lookup) G ops reg) ∧
        Holds G r (alpha.value.val • P) := by
  have hlen : (bHi alpha ++ bLo alpha).length = 251 := by
    rw [List.length_append, bHi_length, bLo_length]
  have hnd : NonDeg P (2 • P) (bHi alpha ++ bLo alpha) := by
    refine nonDeg hq hP0 hord ?_
    rw [hlen]; exact order_big
  have hα : alpha.value.val + T_Q < 2 ^ 255 := by
    have := alpha.value.val_lt
    have h1 : 2 ^ 254 + 2 ^ 130 < 2 ^ 255 := by norm_num
    omega
  have e : resultWith alpha P P = alpha.value.val • P := by
    rw [resultWith, ← dadd_append, lsb_eq, bits_eq, ofBits_decompose _ hα, List.length_append,
      hlen, bCo_length]
    have : 2 ^ (251 + 3) + (alpha.value.val + T_Q) = order + alpha.value.val := by
      rw [order]; ring
    rw [this, add_nsmul, hord, zero_add]
  rw [← e]
  exact assignWith_complete hp hpT hg hok n hP hP hnd

end Verif.Mul
