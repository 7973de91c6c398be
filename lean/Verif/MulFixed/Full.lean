import Verif.MulFixed.Complete

/-!
# Fixed-base multiplication by a full-width scalar: completeness
-/

namespace Verif.MulFixed

open Verif.Region Verif.Ecc Verif.Utilities Verif.RunningSum

variable {C S : Type} {p q : ℕ} [Fact p.Prime] [Fact q.Prime] {b : ZMod p}

/-! ## Digits -/

/-- A digit in base 8. -/
def digit (m i : ℕ) : ℕ := m / 8 ^ i % 8

theorem digit_lt (m i : ℕ) : digit m i < 8 := Nat.mod_lt _ (by norm_num)

theorem value_digit (m n : ℕ) : value (digit m) n = m % 8 ^ n := by
  induction n with
  | zero => simp [value, Nat.mod_one]
  | succ n ih => rw [value, ih, pow_succ, Nat.mod_mul, digit]; ring

theorem mapM_toScalar (hp : 8 ≤ p) (hq : 8 ≤ q) {ks : List ℕ} (h : ∀ k ∈ ks, k < 8) :
    (ks.map fun (k : ℕ) => (k : ZMod p)).mapM (toScalar q) = some (ks.map fun (k : ℕ) => (k : ZMod q)) := by
  induction ks with
  | nil => rfl
  | cons k ks ih =>
    have hk := h k (by simp)
    have hv : (k : ZMod p).val = k := by rw [ZMod.val_natCast, Nat.mod_eq_of_lt (by omega)]
    have h1 : toScalar q (k : ZMod p) = some (k : ZMod q) := by
      unfold toScalar; rw [hv, if_pos (by omega)]
    rw [List.map_cons, List.mapM_cons, h1, ih fun k' h' => h k' (by simp [h'])]
    rfl

/-! ## The complete addition -/

/-- The columns of the complete addition. -/
def addColumns (cfg : Add.Config C S) : List C :=
  [cfg.xP, cfg.yP, cfg.xQR, cfg.yQR, cfg.alpha, cfg.beta, cfg.gamma, cfg.delta, cfg.lambda]

theorem addOps_enable {cfg : Add.Config C S} {x y : EccPoint C (ZMod p)} {reg offset r : ℕ} {s : S}
    {row : ℤ} (h : .enable s r row ∈ (Add.ops cfg x y reg offset : List (Op C S (ZMod p)))) :
    s = cfg.qAdd := by
  simp only [Add.ops, List.mem_cons, Op.enable.injEq, reduceCtorEq, List.not_mem_nil, or_false] at h
  exact h.1

theorem addOps_written {cfg : Add.Config C S} (hc : (addColumns cfg).Nodup) (reg : ℕ)
    (v0 v1 v2 v3 v4 v5 v6 v7 v8 w1 w2 : ZMod p) (e0 e1 e2 e3 : Cell C) :
    Consistent ([.enable cfg.qAdd reg 0, .advice ⟨reg, cfg.xP, 0⟩ v0, .equal ⟨reg, cfg.xP, 0⟩ e0,
      .advice ⟨reg, cfg.yP, 0⟩ v1, .equal ⟨reg, cfg.yP, 0⟩ e1, .advice ⟨reg, cfg.xQR, 0⟩ v2,
      .equal ⟨reg, cfg.xQR, 0⟩ e2, .advice ⟨reg, cfg.yQR, 0⟩ v3, .equal ⟨reg, cfg.yQR, 0⟩ e3,
      .advice ⟨reg, cfg.alpha, 0⟩ v4, .advice ⟨reg, cfg.beta, 0⟩ v5, .advice ⟨reg, cfg.gamma, 0⟩ v6,
      .advice ⟨reg, cfg.delta, 0⟩ v7, .advice ⟨reg, cfg.lambda, 0⟩ v8, .advice ⟨reg, cfg.xQR, 1⟩ w1,
      .advice ⟨reg, cfg.yQR, 1⟩ w2] : List (Op C S (ZMod p))) := by
  obtain ⟨f, hf⟩ := exists_fun (V := ℤ → ZMod p) [(cfg.xP, fun _ => v0), (cfg.yP, fun _ => v1),
    (cfg.xQR, fun r => if r = 0 then v2 else w1), (cfg.yQR, fun r => if r = 0 then v3 else w2),
    (cfg.alpha, fun _ => v4), (cfg.beta, fun _ => v5), (cfg.gamma, fun _ => v6),
    (cfg.delta, fun _ => v7), (cfg.lambda, fun _ => v8)] hc
  simp only [List.mem_cons, List.not_mem_nil, or_false, forall_eq_or_imp, forall_eq] at hf
  obtain ⟨f0, f1, f2, f3, f4, f5, f6, f7, f8⟩ := hf
  refine Written.consistent (reg := reg) (f := f) fun c u h => ?_
  simp only [Assigned, List.mem_cons, List.not_mem_nil, or_false, Op.advice.injEq,
    reduceCtorEq, false_or] at h
  rcases h with ⟨rfl, rfl⟩ | ⟨rfl, rfl⟩ | ⟨rfl, rfl⟩ | ⟨rfl, rfl⟩ | ⟨rfl, rfl⟩ | ⟨rfl, rfl⟩ |
    ⟨rfl, rfl⟩ | ⟨rfl, rfl⟩ | ⟨rfl, rfl⟩ | ⟨rfl, rfl⟩ | ⟨rfl, rfl⟩
  · exact ⟨rfl, by rw [f0]⟩
  · exact ⟨rfl, by rw [f1]⟩
  · exact ⟨rfl, by rw [f2]; rfl⟩
  · exact ⟨rfl, by rw [f3]; rfl⟩
  · exact ⟨rfl, by rw [f4]⟩
  · exact ⟨rfl, by rw [f5]⟩
  · exact ⟨rfl, by rw [f6]⟩
  · exact ⟨rfl, by rw [f7]⟩
  · exact ⟨rfl, by rw [f8]⟩
  · exact ⟨rfl, by rw [f2]; rfl⟩
  · exact ⟨rfl, by rw [f3]; rfl⟩

theorem addOps_consistent {cfg : Add.Config C S} (hc : (addColumns cfg).Nodup)
    (x y : EccPoint C (ZMod p)) (reg : ℕ) :
    Consistent (Add.ops cfg x y reg 0 : List (Op C S (ZMod p))) :=
  addOps_written hc reg _ _ _ _ _ _ _ _ _ _ _ _ _ _ _

/-! ## The gates of the shared configuration -/

/-- The selectors of the shared configuration. -/
def Config.selectors (cfg : Config C S) : List S :=
  [cfg.runningSum.qRangeCheck, cfg.add.qAdd, cfg.addIncomplete.qAddIncomplete]

/-- The columns and selectors are different. -/
structure Config.Distinct (cfg : Config C S) : Prop where
  cols : cfg.columns.Nodup
  addCols : (addColumns cfg.add).Nodup
  sels : cfg.selectors.Nodup

theorem gates_cases {cfg : Config C S} {g} (h : g ∈ (cfg.gates b : Gates C S (ZMod p))) :
    g.1 = cfg.runningSum.qRangeCheck ∨ (g.1 = cfg.add.qAdd ∧ g ∈ (Add.gates cfg.add : Gates C S (ZMod p))) ∨
      (g.1 = cfg.addIncomplete.qAddIncomplete ∧
        g ∈ (AddIncomplete.gates cfg.addIncomplete : Gates C S (ZMod p))) := by
  simp only [Config.gates, RunningSum.gates, Add.gates, AddIncomplete.gates, List.mem_cons,
    List.mem_append, List.not_mem_nil, or_false] at h ⊢
  rcases h with rfl | (rfl | rfl) | rfl
  · exact .inl rfl
  · exact .inl rfl
  · exact .inr (.inl ⟨rfl, rfl⟩)
  · exact .inr (.inr ⟨rfl, rfl⟩)

theorem Config.Distinct.ne {cfg : Config C S} (h : cfg.Distinct) :
    cfg.runningSum.qRangeCheck ≠ cfg.add.qAdd ∧
    cfg.runningSum.qRangeCheck ≠ cfg.addIncomplete.qAddIncomplete ∧
    cfg.add.qAdd ≠ cfg.addIncomplete.qAddIncomplete := by
  have := h.sels
  simp only [Config.selectors, List.nodup_cons, List.mem_cons, List.not_mem_nil, or_false, not_or,
    not_false_eq_true, List.nodup_nil, and_true] at this
  exact ⟨this.1.1, this.1.2, this.2⟩

namespace FullWidth

theorem assignWindows_ok (cfg : Config C S) (reg offset idx : ℕ) (ks : List ℕ) (n : ℕ) :
    (assignWindows cfg reg offset idx ks : M C S (ZMod p) _) n
      = some (ks.mapIdx fun i (k : ℕ) =>
          ⟨⟨reg, cfg.super.window, ((offset + (idx + i) : ℕ) : ℤ)⟩, (k : ZMod p)⟩, n,
        ks.mapIdx fun i (k : ℕ) =>
          .advice ⟨reg, cfg.super.window, ((offset + (idx + i) : ℕ) : ℤ)⟩ (k : ZMod p)) := by
  induction ks generalizing idx with
  | nil => rfl
  | cons k ks ih =>
    unfold assignWindows
    have e : ∀ i, offset + (idx + (i + 1)) = offset + (idx + 1 + i) := fun i => by omega
    rw [List.mapIdx_cons, List.mapIdx_cons]
    simp only [e]
    obtain ⟨os, hos⟩ : ∃ os : List (Op C S (ZMod p)), os = ks.mapIdx fun i (k : ℕ) =>
      .advice ⟨reg, cfg.super.window, ((offset + (idx + 1 + i) : ℕ) : ℤ)⟩ (k : ZMod p) := ⟨_, rfl⟩
    have h := ih (idx + 1)
    rw [← hos] at h ⊢
    have h2 := bind_of (f := fun rest => (pure (⟨⟨reg, cfg.super.window, ((offset + idx : ℕ) : ℤ)⟩,
      (k : ZMod p)⟩ :: rest) : M C S (ZMod p) _)) (ops₂ := []) h rfl
    rw [List.append_nil] at h2
    exact bind_of (n' := n) (ops₁ := [_]) rfl h2

/-- **C61**, completeness: the multiplication succeeds for every scalar, the assignment it makes is
free of conflicts and meets the constraints, and the point returned is the multiple of the base. -/
theorem assign_complete (hg : Good b) {base : FixedPoint b} (hv : base.Valid numWindows)
    (hB : Large base.generator numWindows) (hq : q • base.generator = 0) (hp8 : 8 ≤ p) (hq8 : 8 ≤ q)
    (hq255 : q ≤ 2 ^ 255) {cfg : Config C S} (hc : cfg.super.Configured) (hd : cfg.super.Distinct)
    (hs : cfg.qMulFixedFull ∉ cfg.super.selectors) (scalar : ZMod q) (n : ℕ) :
    ∃ r ws ops, assign cfg scalar base n = some ((r, ws), n + 1 + 1, ops) ∧
      Val r (scalar.val • base.generator) ∧ Consistent ops ∧
      (∀ s reg row, .enable s reg row ∈ ops → s = cfg.qMulFixedFull ∨ s ∈ cfg.super.selectors) ∧
      ∀ G, Honest G ops → Sat (gates b cfg) G ops ∧ Holds G r (scalar.val • base.generator) ∧
        ws.map (fun c => G.at c.cell)
          = (List.range numWindows).map (fun i => (digit scalar.val i : ZMod p)) := by
  obtain ⟨d1, d2, d3⟩ := hd.ne
  simp only [Config.selectors, List.mem_cons, List.not_mem_nil, or_false, not_or] at hs
  obtain ⟨t1, t2, t3⟩ := hs
  obtain ⟨acc, mulB, oi, hrun, hvacc, hvmul, hen, hwr, hsat⟩ := inner_complete hg (by decide) hv hB hq hq8 hc
    (d := digit scalar.val) (fun i _ => digit_lt _ i) (toggle := cfg.qMulFixedFull) t3 n 0 (n + 1)
  obtain ⟨words, hwords⟩ : ∃ words, words = (List.range numWindows).map fun i => digit scalar.val i :=
    ⟨_, rfl⟩
  have hlen : words.length = numWindows := by simp [hwords]
  have hdec : decomposeWord 256 scalar 255 3 = some words := by
    rw [decomposeWord_eq 256 scalar (by norm_num) (by norm_num) (by norm_num), hwords]
    refine congrArg some ?_
    refine List.map_congr_left fun i _ => ?_
    rw [Nat.mod_eq_of_lt (lt_of_lt_of_le (ZMod.val_lt scalar) hq255)]
    rfl
  obtain ⟨o0, ho0⟩ : ∃ o0 : List (Op C S (ZMod p)), o0 = (List.range numWindows).map fun i =>
    .enable cfg.qMulFixedFull n ((0 + i : ℕ) : ℤ) := ⟨_, rfl⟩
  obtain ⟨ow, how⟩ : ∃ ow : List (Op C S (ZMod p)), ow = words.mapIdx fun i (k : ℕ) =>
    .advice ⟨n, cfg.super.window, ((0 + (0 + i) : ℕ) : ℤ)⟩ (k : ZMod p) := ⟨_, rfl⟩
  obtain ⟨ws, hws⟩ : ∃ ws : List (ACell C (ZMod p)), ws = words.mapIdx fun i (k : ℕ) =>
    ⟨⟨n, cfg.super.window, ((0 + (0 + i) : ℕ) : ℤ)⟩, (k : ZMod p)⟩ := ⟨_, rfl⟩
  have hvals : ws.map ACell.value = words.map fun (k : ℕ) => (k : ZMod p) := by
    refine List.ext_getElem (by simp [hws]) fun i h1 h2 => ?_
    simp [hws]
  have htotal : entry base.generator numWindows (numWindows - 1) (digit scalar.val (numWindows - 1)) +
      psum (digit scalar.val) (numWindows - 1) • base.generator = scalar.val • base.generator := by
    rw [show numWindows - 1 = 84 from rfl, show numWindows = 84 + 1 from rfl, total, value_digit,
      Nat.mod_eq_of_lt]
    refine lt_of_lt_of_le (ZMod.val_lt scalar) (hq255.trans ?_)
    norm_num
  obtain ⟨hadd1, hadd2⟩ := Add.complete hg (Add.run cfg.super.add mulB acc (n + 1) 0 (n + 1 + 1)) hvmul hvacc
  rw [htotal] at hadd1 hadd2
  have hfirst : (do
      let windows ← witness cfg n 0 scalar
      let ks ← unwrap ((windows.map ACell.value).mapM (toScalar q))
      let (acc, mulB) ← assignRegionInner cfg.super numWindows n 0 ks base cfg.qMulFixedFull
      pure (windows, acc, mulB) : M C S (ZMod p) _) (n + 1)
      = some ((ws, acc, mulB), n + 1, (o0 ++ ow) ++ (oi ++ [])) := by
    refine bind_of (a := ws) (n' := n + 1) (ops₁ := o0 ++ ow) ?_ ?_
    · unfold witness
      refine bind_of (ops₁ := o0) (by rw [ho0]; exact enableRows_run _ _ _ _ _) ?_
      refine bind_of (ops₁ := []) (unwrap_of hdec _) ?_
      refine bind_of (ops₁ := []) (assert_of hlen _) ?_
      rw [hws, how]
      exact assignWindows_ok cfg n 0 0 words (n + 1)
    refine bind_of (ops₁ := []) (unwrap_of (a := (List.range numWindows).map fun i =>
      (digit scalar.val i : ZMod q)) ?_ _) ?_
    · rw [hvals, mapM_toScalar hp8 hq8, hwords, List.map_map]
      · rfl
      · intro k hk
        rw [hwords] at hk
        obtain ⟨i, -, rfl⟩ := List.mem_map.1 hk
        exact digit_lt _ _
    exact bind_of hrun rfl
  have hrun' : assign cfg scalar base n = some ((Add.out cfg.super.add mulB acc (n + 1) 0, ws), n + 1 + 1,
      ((o0 ++ ow) ++ (oi ++ [])) ++ (Add.ops cfg.super.add mulB acc (n + 1) 0 ++ [])) := by
    unfold assign
    refine bind_of (a := (ws, acc, mulB)) (n' := n + 1) hfirst ?_
    exact bind_of (n' := n + 1 + 1) (Add.run cfg.super.add mulB acc (n + 1) 0 (n + 1 + 1)) rfl
  refine ⟨_, ws, _, hrun', hadd1, ?_, ?_, ?_⟩
  · obtain ⟨f, hf, hfw⟩ := exists_fits hd.cols base numWindows (digit scalar.val)
      (fun r => (digit scalar.val r.toNat : ZMod p))
    have hw1 : Written n f ((o0 ++ ow) ++ (oi ++ [])) := by
      refine (Written.append ?_ ?_).append ((hwr f hf).append Written.nil)
      · intro c v h
        rw [ho0] at h
        simp [Assigned] at h
      · intro c v h
        rw [how, hwords] at h
        simp only [Assigned, List.mem_mapIdx, Op.advice.injEq, reduceCtorEq, exists_false, or_false,
          zero_add, List.length_map, List.length_range, List.getElem_map, List.getElem_range] at h
        obtain ⟨i, hi, rfl, rfl⟩ := h
        refine ⟨rfl, ?_⟩
        dsimp only
        rw [hfw]; simp
    refine Merkle.consistent_bind (Local.assignRegion first_acts)
      (g := (assignRegion fun reg => Add.assignRegion cfg.super.add mulB acc reg 0) >>= fun r => pure (r, ws))
      ((Local.assignRegion fun _ => add_acts).bind fun _ => Local.pure _) (a := (ws, acc, mulB)) (n := n)
      (m := n + 1) hfirst
      (bind_of (n' := n + 1 + 1) (Add.run cfg.super.add mulB acc (n + 1) 0 (n + 1 + 1)) rfl)
      hw1.consistent ?_
    rw [List.append_nil]
    exact addOps_consistent hd.addCols mulB acc (n + 1)
  · intro s r row hm
    simp only [Config.selectors, List.mem_cons, List.not_mem_nil, or_false]
    simp only [List.mem_append, List.not_mem_nil, or_false] at hm
    rcases hm with ((hm | hm) | hm) | hm
    · rw [ho0] at hm
      simp at hm
      obtain ⟨_, _, rfl, _⟩ := hm
      exact .inl rfl
    · rw [how] at hm; simp at hm
    · rcases hen _ _ _ hm with h | h
      · exact .inl h.1
      · exact .inr (.inr (.inr h))
    · exact .inr (.inr (.inl (addOps_enable hm)))
  · intro G hG
    have hGi : Honest G oi := hG.left.right.left
    have hGw : Honest G ow := hG.left.left.right
    have hGa : Honest G (Add.ops cfg.super.add mulB acc (n + 1) 0) := hG.right.left
    obtain ⟨s1, hhacc, hhmul, hcoords⟩ := hsat G hGi
    obtain ⟨s2, hh⟩ := hadd2 G hGa hhmul hhacc
    have hrow : ∀ i < numWindows, G n cfg.super.window ((i : ℕ) : ℤ) = (digit scalar.val i : ZMod p) := by
      intro i hi
      refine hGw.1 ⟨n, cfg.super.window, ((i : ℕ) : ℤ)⟩ _ ?_
      rw [how, hwords]
      simp only [List.mem_mapIdx, Op.advice.injEq, zero_add, List.length_map, List.length_range,
        List.getElem_map, List.getElem_range]
      exact ⟨i, hi, rfl, rfl⟩
    refine ⟨⟨?_, ?_, ?_, fun c v hm => hG.2 c v hm⟩, hh, ?_⟩
    · intro g hgm r row hm
      have hcase : (g.1 = cfg.qMulFixedFull ∧ r = n ∧ ∃ w < numWindows, row = ((w + 0 : ℕ) : ℤ)) ∨
          (g.1 = cfg.super.addIncomplete.qAddIncomplete ∧ .enable g.1 r row ∈ oi) ∨
          (g.1 = cfg.super.add.qAdd ∧
            .enable g.1 r row ∈ (Add.ops cfg.super.add mulB acc (n + 1) 0 : List (Op C S (ZMod p)))) := by
        rcases List.mem_append.1 hm with hm | hm
        · rcases List.mem_append.1 hm with hm | hm
          · rcases List.mem_append.1 hm with hm | hm
            · rw [ho0] at hm
              obtain ⟨i, hi, h⟩ := List.mem_map.1 hm
              simp only [Op.enable.injEq] at h
              exact .inl ⟨h.1.symm, h.2.1.symm, i, List.mem_range.1 hi, by rw [← h.2.2]; simp⟩
            · rw [how] at hm; simp at hm
          · rw [List.append_nil] at hm
            rcases hen _ _ _ hm with h | h
            · exact .inl h
            · exact .inr (.inl ⟨h, hm⟩)
        · rw [List.append_nil] at hm
          exact .inr (.inr ⟨addOps_enable hm, hm⟩)
      rcases List.mem_cons.1 hgm with rfl | hgm
      · rcases hcase with ⟨-, rfl, w, hw, rfl⟩ | ⟨h, -⟩ | ⟨h, -⟩
        · intro f hf
          have e : G.query r ((w + 0 : ℕ) : ℤ) cfg.super.window 0 = (digit scalar.val w : ZMod p) := by
            simp only [Grid.query, add_zero]; exact hrow w hw
          dsimp only at hf
          rw [e] at hf
          rcases List.mem_append.1 hf with hf | hf
          · exact hcoords w hw f hf
          · rw [List.mem_singleton.1 hf, rangeCheck_iff _ _ (by norm_num)]
            exact ⟨_, digit_lt _ _, rfl⟩
        · exact absurd h t3
        · exact absurd h t2
      · rcases gates_cases hgm with h | ⟨h, hgg⟩ | ⟨h, hgg⟩
        · rcases hcase with ⟨h', -⟩ | ⟨h', -⟩ | ⟨h', -⟩
          · exact absurd (h'.symm.trans h) t1
          · exact absurd (h.symm.trans h') d2
          · exact absurd (h.symm.trans h') d1
        · rcases hcase with ⟨h', -⟩ | ⟨h', -⟩ | ⟨h', hm'⟩
          · exact absurd (h'.symm.trans h) t2
          · exact absurd (h.symm.trans h') d3
          · exact s2.gates g hgg r row hm'
        · rcases hcase with ⟨h', -⟩ | ⟨h', hm'⟩ | ⟨h', -⟩
          · exact absurd (h'.symm.trans h) t3
          · exact s1.gates g hgg r row hm'
          · exact absurd (h'.symm.trans h) d3
    · intro x y hm
      simp only [List.mem_append, List.not_mem_nil, or_false] at hm
      rcases hm with ((hm | hm) | hm) | hm
      · rw [ho0] at hm; simp at hm
      · rw [how] at hm; simp at hm
      · exact s1.equal x y hm
      · exact s2.equal x y hm
    · intro x y hm
      simp only [List.mem_append, List.not_mem_nil, or_false] at hm
      rcases hm with ((hm | hm) | hm) | hm
      · rw [ho0] at hm; simp at hm
      · rw [how] at hm; simp at hm
      · exact s1.const x y hm
      · exact s2.const x y hm
    · refine List.ext_getElem (by simp [hws, hwords]) fun i h1 h2 => ?_
      simp only [List.length_map, List.length_range] at h2
      simp only [List.getElem_map, List.getElem_range, hws, List.getElem_mapIdx, zero_add]
      exact hrow i h2

end FullWidth

end Verif.MulFixed
