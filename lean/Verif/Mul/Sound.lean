import Verif.Mul.Program

/-!
# Variable-base scalar multiplication: what a satisfying assignment contains
-/

namespace Verif.Mul

open Verif.Region Verif.Ecc Verif.Utilities Verif.RunningSum

variable {C S : Type}

/-- What is needed of a configuration: `configure` (mul.rs 64-83) gives distinct selectors, and
shares the addition configuration. -/
structure Config.Ok (cfg : Config C S) : Prop where
  add_eq : cfg.complete.add = cfg.add
  lookup : cfg.overflow.lookup.Distinct
  sels : [cfg.add.qAdd, cfg.hi.qMul1, cfg.hi.qMul2, cfg.hi.qMul3, cfg.lo.qMul1, cfg.lo.qMul2,
    cfg.lo.qMul3, cfg.complete.qMulDecomposeVar, cfg.qMulLsb, cfg.overflow.qMulOverflow,
    cfg.overflow.lookup.qLookup, cfg.overflow.lookup.qRunning,
    cfg.overflow.lookup.qBitshift].Nodup

/-- Nonvacuity: the configuration made by `configure`. -/
theorem pallasConfig_ok : pallasConfig.Ok := by
  refine ⟨rfl, ⟨by decide, by decide, by decide, ?_⟩, by decide⟩
  intro q4 q5 h
  cases h

section

variable {F : Type} [Field F] (cfg : Config C S)

theorem sub_add (g) (h : g ∈ (Add.gates cfg.add : Gates C S F)) : g ∈ (gates cfg : Gates C S F) := by
  simp only [gates, List.mem_append]; tauto

theorem sub_hi (g) (h : g ∈ (Incomplete.gates cfg.hi : Gates C S F)) :
    g ∈ (gates cfg : Gates C S F) := by
  simp only [gates, List.mem_append]; tauto

theorem sub_lo (g) (h : g ∈ (Incomplete.gates cfg.lo : Gates C S F)) :
    g ∈ (gates cfg : Gates C S F) := by
  simp only [gates, List.mem_append]; tauto

theorem sub_complete (g) (h : g ∈ (Complete.gates cfg.complete : Gates C S F)) :
    g ∈ (gates cfg : Gates C S F) := by
  simp only [gates, List.mem_append]; tauto

theorem sub_lsb (g) (h : g ∈ (lsbGates cfg : Gates C S F)) : g ∈ (gates cfg : Gates C S F) := by
  simp only [gates, List.mem_append]; tauto

theorem sub_overflow (g) (h : g ∈ (Overflow.gates cfg.overflow ++
    LookupRange.gates 10 cfg.overflow.lookup : Gates C S F)) : g ∈ (gates cfg : Gates C S F) := by
  simp only [gates, List.mem_append] at h ⊢; tauto

end

/-! ## The running sum -/

section

variable {F : Type} [Field F]

/-- The running sums, least significant first, are the quotients by powers of two. -/
theorem zs_values {α : Type} {f : α → F} {L : List α} {ks : List Bool}
    (h : L.map f = 0 :: zRun 0 ks) {j : ℕ} {c : α} (hc : L.reverse[j]? = some c) :
    f c = ((ofBits ks / 2 ^ j : ℕ) : F) := by
  have hlen : L.length = ks.length + 1 := by
    have := congrArg List.length h
    simpa [zRun_length] using this
  have hj : j < L.length := by
    by_contra hc'
    rw [List.getElem?_eq_none (by simpa using hc')] at hc
    cases hc
  rw [List.getElem?_reverse hj] at hc
  have h2 : (L.map f)[L.length - 1 - j]? = some (f c) := by rw [List.getElem?_map, hc]; rfl
  rw [h, zRun_eq] at h2
  have e : L.length - 1 - j = ks.length - j := by omega
  rw [e] at h2
  by_cases hjk : j = ks.length
  · subst hjk
    rw [Nat.sub_self] at h2
    simp only [List.getElem?_cons_zero, Option.some.injEq] at h2
    rw [← h2, Nat.div_eq_of_lt (ofBits_lt ks), Nat.cast_zero]
  · obtain ⟨m, hm⟩ : ∃ m, ks.length - j = m + 1 := ⟨ks.length - j - 1, by omega⟩
    rw [hm, List.getElem?_cons_succ, List.getElem?_map, List.getElem?_range (by omega)] at h2
    simp only [Option.map_some, Option.some.injEq] at h2
    rw [← h2, ofBits_take _ _ (by omega)]
    have : ks.length - (m + 1) = j := by omega
    rw [this]

theorem zEnd_eq (ks : List Bool) (k : Bool) (z : F) :
    zRun z (ks ++ [k]) = zRun z ks ++ [2 * zEnd z ks + Incomplete.bitVal k] := by
  rw [zRun_append]; rfl

end

/-! ## The accumulator -/

section

variable {F : Type} [Field F] [DecidableEq F] {b : F}

/-- The order of the group. -/
def order : ℕ := 2 ^ 254 + T_Q

theorem order_big : 3 * 2 ^ 251 < order := by norm_num [order, T_Q]

/-- The last addition makes the multiple even or odd. -/
theorem lsb_eq (P : Pt b) (ks : List Bool) (k : Bool) :
    lsbPt k P + dadd P (2 • P) ks = (2 ^ ks.length + ofBits (ks ++ [k])) • P := by
  rw [dadd_eq, ofBits_append_singleton]
  cases k
  · have e : 2 ^ ks.length + 1 + 2 * ofBits ks = 1 + (2 ^ ks.length + 2 * ofBits ks) := by ring
    simp only [lsbPt, bit, Bool.false_eq_true, if_false, add_zero]
    rw [e, add_nsmul, one_nsmul, neg_add_cancel_left]
  · have e : 2 ^ ks.length + 1 + 2 * ofBits ks = 2 ^ ks.length + (2 * ofBits ks + 1) := by ring
    simp only [lsbPt, bit, if_true, zero_add]
    rw [e]

end

variable {p : ℕ} [Fact p.Prime] {b : ZMod p}

theorem mem_last {cfg : Config C S} {alpha : ACell C (ZMod p)} {base baseInc : EccPoint C (ZMod p)}
    {reg : ℕ} :
    (hiOut cfg alpha base baseInc reg).2.getLast? = some (zH cfg alpha base baseInc reg) ∧
    (loOut cfg alpha base baseInc reg).2.getLast? = some (zL cfg alpha base baseInc reg) ∧
    (coZs cfg alpha base baseInc reg).getLast? = some (z1 cfg alpha base baseInc reg) :=
  ⟨zCells_getLast (n := 124) (bHi_length alpha), zCells_getLast (n := 125) (bLo_length alpha),
    loopZs_getLast (bCo_length alpha)⟩

theorem last_value {F α : Type} [Field F] {f : α → F} {L : List α} {c : α}
    (hc : L.getLast? = some c) {z : F} {ks : List Bool} (h : L.map f = zRun z ks) :
    f c = zEnd z ks := by
  have hne : ks ≠ [] := by
    rintro rfl
    have : L = [] := by simpa [zRun] using h
    rw [this] at hc; cases hc
  have h2 := zRun_getLast z ks hne
  rw [← h, List.getLast?_map, hc] at h2
  simpa using h2

/-- What a satisfying assignment of the first region contains, when the points used in the
incomplete additions are the base. -/
theorem region_sound (hg : Good b) {cfg : Config C S} (hok : cfg.Ok) (hq : order.Prime)
    {alpha : ACell C (ZMod p)} {base baseInc : EccPoint C (ZMod p)} {reg m m' : ℕ}
    {r : EccPoint C (ZMod p)} {zs : List (ACell C (ZMod p))} {ops : List (Op C S (ZMod p))}
    (h : mulRegion cfg alpha base baseInc reg m = some ((r, zs), m', ops))
    (G : Grid C (ZMod p)) (hs : Sat (gates cfg) G ops) {P : Pt b} (hP : Holds G base P)
    (hP0 : P ≠ 0) (hord : order • P = 0)
    (hHi : enc P = (G reg cfg.hi.da.xP 2, G reg cfg.hi.yP 2))
    (hLo : enc P = (G reg cfg.lo.da.xP 2, G reg cfg.lo.yP 2)) :
    ∃ K < 2 ^ 255, (∀ j c, zs[j]? = some c → G.at c.cell = ((K / 2 ^ j : ℕ) : ZMod p)) ∧
      Holds G r ((2 ^ 254 + K) • P) := by
  obtain ⟨hex1, hex2⟩ := mulRegion_some h
  rw [mulRegion_run cfg alpha base baseInc reg hex1 hex2] at h
  simp only [Option.some.injEq, Prod.mk.injEq] at h
  obtain ⟨⟨rfl, rfl⟩, -, rfl⟩ := h
  unfold regionOps at hs
  have s1 := hs.left
  have s2 := hs.right.left
  have s3 := hs.right.right.left
  have s4 := hs.right.right.right.left
  have s5 := hs.right.right.right.right.left
  have s6 := hs.right.right.right.right.right
  obtain ⟨lH, lL, l1⟩ := mem_last (cfg := cfg) (alpha := alpha) (base := base)
    (baseInc := baseInc) (reg := reg)
  -- doubling
  have h0 : Holds G (acc0 cfg base reg) (P + P) :=
    Add.sound hg (Add.run cfg.add base base reg 0 0) G
      (s1.mono (sub_add cfg) fun _ h => h) hP hP
  have hz0 : G.at (zI cfg reg : ACell C (ZMod p)).cell = 0 := s2.const _ _ (by simp [zI])
  -- first half
  obtain ⟨kH, lenH, zsH, accH⟩ := Incomplete.dad_sound hg (by decide)
    (Incomplete.dad_run (bHi_length alpha) hex1 0) G
    (s3.mono (sub_hi cfg) fun _ h => h) hHi h0
  have vH := last_value lH zsH
  -- second half
  have hnd : ∀ kL : List Bool, kL.length = 126 → NonDeg P (2 • P) (kH ++ kL) := by
    intro kL hl
    refine nonDeg hq hP0 hord ?_
    have e : (kH ++ kL).length = 251 := by rw [List.length_append, lenH, hl]
    rw [e]; exact order_big
  rw [← two_nsmul] at accH
  have accH' := accH (nonDeg_append (hnd (List.replicate 126 false) (by simp))).1
  obtain ⟨kL, lenL, zsL, accL⟩ := Incomplete.dad_sound hg (by decide)
    (Incomplete.dad_run (bLo_length alpha) hex2 0) G
    (s4.mono (sub_lo cfg) fun _ h => h) hLo accH'
  have vL := last_value lL zsL
  have accL' := accL (nonDeg_append (hnd kL lenL)).2
  -- complete additions
  obtain ⟨kC, lenC, zsC, accC⟩ := Complete.sound hg
    (Complete.run (cfg := cfg.complete) (reg := reg) (offset := 129) (base := base)
      (acc := (loOut cfg alpha base baseInc reg).1) (z := zL cfg alpha base baseInc reg)
      (bCo_length alpha) 0) G
    (s5.mono (fun g h => (List.mem_append.1 h).elim
      (fun h => sub_add cfg g (hok.add_eq ▸ h)) (sub_complete cfg g)) fun _ h => h) hP accL'
  have v1 := last_value l1 zsC
  -- the last bit
  obtain ⟨k, vk, acck⟩ := processLsb_sound hg rfl
    (s6.mono (fun g h => (List.mem_append.1 h).elim (sub_add cfg g) (sub_lsb cfg g)) fun _ h => h) hP accC
  set ks := kH ++ kL ++ kC ++ [k] with hks
  have lks : ks.length = 255 := by
    simp only [hks, List.length_append, List.length_singleton, lenH, lenL, lenC]
  refine ⟨ofBits ks, by have := ofBits_lt ks; rwa [lks] at this, ?_, ?_⟩
  · intro j c hc
    refine zs_values (f := fun c : ACell C (ZMod p) => G.at c.cell) ?_ hc
    unfold zsFwd
    simp only [List.map_append, List.map_singleton]
    have e0 : zRun (0 : ZMod p) ks = zRun 0 kH ++ zRun (zEnd 0 kH) kL ++
        zRun (zEnd (zEnd 0 kH) kL) kC ++
        [2 * zEnd (zEnd (zEnd 0 kH) kL) kC + Incomplete.bitVal k] := by
      have ez : ∀ (z : ZMod p) (as bs : List Bool), zEnd z (as ++ bs) = zEnd (zEnd z as) bs :=
        fun z as bs => by simp only [zEnd, List.foldl_append]
      rw [hks, zEnd_eq, zRun_append, zRun_append, ez, ez, ez]
    rw [hz0] at zsH vH
    rw [vH] at zsL vL
    rw [vL] at zsC v1
    have vk' : G.at (lsOut cfg alpha base baseInc reg).2.cell
      = 2 * G.at (z1 cfg alpha base baseInc reg).cell + Incomplete.bitVal k := vk
    have zsC' : (coZs cfg alpha base baseInc reg).map (fun c => G.at c.cell) = _ := zsC
    have zsH' : (hiOut cfg alpha base baseInc reg).2.map (fun c => G.at c.cell) = _ := zsH
    have zsL' : (loOut cfg alpha base baseInc reg).2.map (fun c => G.at c.cell) = _ := zsL
    have v1' : G.at (z1 cfg alpha base baseInc reg).cell = _ := v1
    rw [hz0, zsH', zsL', zsC', vk', v1', e0]
    simp
  · have e : lsbPt k P + dadd P (dadd P (dadd P (2 • P) kH) kL) kC
        = (2 ^ 254 + ofBits ks) • P := by
      rw [← dadd_append, ← dadd_append, lsb_eq, hks]
      simp only [List.append_assoc, List.length_append, lenH, lenL, lenC]
    rw [← e]
    exact acck

/-! ## Selectors -/

theorem loopOps_no_enable {F : Type} [Field F] {cfg : Incomplete.Config C S} {reg : ℕ} {xp yp : F}
    {row : ℕ} {s : F × F × F} {ks : List Bool} {x : S} {r : ℕ} {row' : ℤ} :
    .enable x r row' ∉ Incomplete.loopOps cfg reg xp yp row s ks := by
  rw [Incomplete.mem_loopOps]
  rintro ⟨i, hi, h⟩
  simp [Incomplete.rowOps] at h

theorem dadOps_enables {F : Type} [Field F] [DecidableEq F] {n : ℕ} {cfg : Incomplete.Config C S}
    {reg offset : ℕ} {base acc : EccPoint C F} {bits : List Bool} {z : ACell C F} {x : S} {r : ℕ}
    {row : ℤ} (h : .enable x r row ∈ Incomplete.dadOps n cfg reg offset base bits acc z) :
    (x = cfg.qMul1 ∨ x = cfg.qMul2 ∨ x = cfg.qMul3) ∧ r = reg := by
  unfold Incomplete.dadOps at h
  simp only [List.mem_append, List.mem_cons, List.mem_map, List.mem_range, reduceCtorEq,
    Op.enable.injEq, List.not_mem_nil, or_false, loopOps_no_enable] at h
  rcases h with (h | ⟨i, _, h⟩) | h
  · exact ⟨.inl h.1, h.2.1⟩
  · exact ⟨.inr (.inl h.1.symm), h.2.1.symm⟩
  · exact ⟨.inr (.inr h.1), h.2.1⟩

theorem addOps_enables {F : Type} [Field F] [DecidableEq F] {cfg : Add.Config C S}
    {p q : EccPoint C F} {reg offset : ℕ} {x : S} {r : ℕ} {row : ℤ}
    (h : .enable x r row ∈ Add.ops cfg p q reg offset) : x = cfg.qAdd ∧ r = reg := by
  simp only [Add.ops, List.mem_cons, reduceCtorEq, Op.enable.injEq, List.not_mem_nil,
    or_false] at h
  exact ⟨h.1, h.2.1⟩

theorem completeOps_enables {F : Type} [Field F] [DecidableEq F] {len : ℕ}
    {cfg : Complete.Config C S} {reg offset : ℕ} {bits : List Bool} {base acc : EccPoint C F}
    {z : ACell C F} {x : S} {r : ℕ} {row : ℤ}
    (h : .enable x r row ∈ Complete.ops len cfg reg offset bits base acc z) :
    (x = cfg.qMulDecomposeVar ∨ x = cfg.add.qAdd) ∧ r = reg := by
  have hl : ∀ (ks : List Bool) (row' : ℕ) (acc : EccPoint C F) (zv : F),
      .enable x r row ∈ Complete.loopOps cfg reg base row' acc zv ks →
        x = cfg.add.qAdd ∧ r = reg := by
    intro ks
    induction ks with
    | nil => intro row' acc zv h; simp [Complete.loopOps] at h
    | cons k ks ih =>
      intro row' acc zv h
      unfold Complete.loopOps at h
      rcases List.mem_append.1 h with h | h
      · unfold Complete.rowOps at h
        rcases List.mem_append.1 h with h | h
        · rcases List.mem_append.1 h with h | h
          · simp at h
          · exact addOps_enables h
        · exact addOps_enables h
      · exact ih _ _ _ h
  unfold Complete.ops at h
  rcases List.mem_append.1 h with h | h
  · simp only [List.mem_append, List.mem_cons, List.mem_map, List.mem_range, reduceCtorEq,
      Op.enable.injEq, List.not_mem_nil, or_false] at h
    obtain ⟨i, _, h⟩ := h
    exact ⟨.inl h.1.symm, h.2.1.symm⟩
  · obtain ⟨h1, h2⟩ := hl _ _ _ _ h
    exact ⟨.inr h1, h2⟩

theorem lsbOps_enables {F : Type} [Field F] [DecidableEq F] {cfg : Config C S} {reg offset : ℕ}
    {base acc : EccPoint C F} {z1 : ACell C F} {lsb : Bool} {x : S} {r : ℕ} {row : ℤ}
    (h : .enable x r row ∈ lsbOps cfg reg offset base acc z1 lsb) :
    (x = cfg.qMulLsb ∨ x = cfg.add.qAdd) ∧ r = reg := by
  unfold lsbOps at h
  rcases List.mem_append.1 h with h | h
  · simp only [List.mem_cons, reduceCtorEq, Op.enable.injEq, List.not_mem_nil, or_false] at h
    exact ⟨.inl h.1, h.2.1⟩
  · obtain ⟨h1, h2⟩ := addOps_enables h
    exact ⟨.inr h1, h2⟩

theorem regionOps_enables {cfg : Config C S} {alpha : ACell C (ZMod p)}
    {base baseInc : EccPoint C (ZMod p)} {reg : ℕ} {x : S} {r : ℕ} {row : ℤ}
    (h : .enable x r row ∈ regionOps cfg alpha base baseInc reg) : r = reg ∧
      x ∈ [cfg.add.qAdd, cfg.hi.qMul1, cfg.hi.qMul2, cfg.hi.qMul3, cfg.lo.qMul1, cfg.lo.qMul2,
        cfg.lo.qMul3, cfg.complete.qMulDecomposeVar, cfg.complete.add.qAdd, cfg.qMulLsb] := by
  unfold regionOps at h
  simp only [List.mem_append] at h
  simp only [List.mem_cons, List.not_mem_nil, or_false]
  rcases h with h | h | h | h | h | h
  · have := addOps_enables h; tauto
  · simp at h
  · have := dadOps_enables h; tauto
  · have := dadOps_enables h; tauto
  · have := completeOps_enables h; tauto
  · have := lsbOps_enables h; tauto

/-- **C41**, soundness, in part: if the assignment satisfies all the constraints imposed by the
multiplication, *and* the cells holding the base in the incomplete additions (which no constraint
ties to `base`) do hold the base, then the result is `[α] P`, where `α` is the canonical
representative of the value of the scalar cell.

Missing: the last two hypotheses are not consequences of the constraints, see `mul_unsound`. -/
theorem assign_sound_partial (hp : 2 ^ 254 < p) (hg : Good b) {cfg : Config C S} (hok : cfg.Ok)
    (hq : order.Prime) {alpha : ACell C (ZMod p)} {base r : EccPoint C (ZMod p)} {n n' : ℕ}
    {ops : List (Op C S (ZMod p))} (h : assign cfg alpha base n = some (r, n', ops))
    (G : Grid C (ZMod p)) (hs : Sat (gates cfg) G ops)
    (hl : ∀ reg, SatLookup (LookupRange.lookup 10 cfg.overflow.lookup) G ops reg) {P : Pt b}
    (hP : Holds G base P) (hP0 : P ≠ 0) (hord : order • P = 0)
    (hHi : enc P = (G n cfg.hi.da.xP 2, G n cfg.hi.yP 2))
    (hLo : enc P = (G n cfg.lo.da.xP 2, G n cfg.lo.yP 2)) :
    Holds G r ((G.at alpha.cell).val • P) := by
  unfold assign assignWith at h
  obtain ⟨⟨r1, zs⟩, n1, ops1, ops2, h1, h2, rfl⟩ := bind_some h
  have h1' : mulRegion cfg alpha base base n (n + 1) = some ((r1, zs), n1, ops1) := h1
  obtain ⟨hex1, hex2⟩ := mulRegion_some h1'
  have h1'' := h1'
  rw [mulRegion_run cfg alpha base base n hex1 hex2] at h1''
  simp only [Option.some.injEq, Prod.mk.injEq] at h1''
  obtain ⟨-, rfl, hops1⟩ := h1''
  obtain ⟨u, n2, ops3, ops4, h3, h4, rfl⟩ := bind_some h2
  have h4' : (some (r1, n2, ([] : List (Op C S (ZMod p)))) : Option _) = some (r, n', ops4) := h4
  simp only [Option.some.injEq, Prod.mk.injEq] at h4'
  obtain ⟨rfl, -, rfl⟩ := h4'
  obtain ⟨K, hK, hz, hr⟩ := region_sound hg hok hq h1' G hs.left hP hP0 hord hHi hLo
  have hKα := Overflow.sound hp hok.lookup h3 (tot := ops1 ++ (ops3 ++ []))
    (fun op hm => by simp [hm])
    (fun q row hm => by
      rcases List.mem_append.1 hm with hm | hm
      · rw [← hops1] at hm
        have := (regionOps_enables hm).1
        omega
      · simpa using hm) G
    (hs.mono (sub_overflow cfg) fun _ h => h)
    (hl _) hK hz
  have e : (2 ^ 254 + K) • P = (G.at alpha.cell).val • P := by
    have : 2 ^ 254 + K = order + (G.at alpha.cell).val := by rw [hKα, order]; ring
    rw [this, add_nsmul, hord, zero_add]
  rw [← e]
  exact hr

end Verif.Mul
