import Verif.MulFixed.Full

/-!
# The running sum of a fixed-base multiplication: completeness
-/

namespace Verif.MulFixed

open Verif.Region Verif.Ecc Verif.Utilities Verif.RunningSum

variable {C S : Type} {p q : ℕ} [Fact p.Prime] [Fact q.Prime] {b : ZMod p}

theorem digit_succ (m i : ℕ) : digit m (i + 1) = digit (m / 8) i := by
  unfold digit; rw [pow_succ', Nat.div_div_eq_div_mul]

theorem div_step (m i : ℕ) : m / 8 ^ i = digit m i + 8 * (m / 8 ^ (i + 1)) := by
  unfold digit
  rw [pow_succ, ← Nat.div_div_eq_div_mul]
  omega

theorem eight_ne (hp : 8 < p) : (8 : ZMod p) ≠ 0 := by
  intro h
  have : ((8 : ℕ) : ZMod p) = 0 := by exact_mod_cast h
  rw [ZMod.natCast_eq_zero_iff] at this
  exact absurd (Nat.le_of_dvd (by norm_num) this) (by omega)

theorem sumCells_explicit (h8 : (8 : ZMod p) ≠ 0) (reg : ℕ) (col : C) (N row m : ℕ) :
    sumCells reg col (8 : ZMod p)⁻¹ row (m : ZMod p) ((List.range N).map fun i => (digit m i : ZMod p))
      = (List.range N).map fun i =>
        ⟨⟨reg, col, ((row + i + 1 : ℕ) : ℤ)⟩, ((m / 8 ^ (i + 1) : ℕ) : ZMod p)⟩ := by
  induction N generalizing row m with
  | zero => rfl
  | succ N ih =>
    rw [List.range_succ_eq_map, List.map_cons, List.map_cons, List.map_map, List.map_map]
    have e : ((m : ZMod p) - (digit m 0 : ZMod p)) * 8⁻¹ = ((m / 8 : ℕ) : ZMod p) := by
      have h1 := div_step m 0
      simp only [pow_zero, Nat.div_one, zero_add, pow_one] at h1
      have h2 : (m : ZMod p) = (digit m 0 : ZMod p) + 8 * ((m / 8 : ℕ) : ZMod p) := by
        conv_lhs => rw [h1]
        push_cast; ring
      rw [h2]; field_simp; ring
    rw [sumCells, e]
    have e2 : (List.range N).map ((fun i => (digit m i : ZMod p)) ∘ Nat.succ)
        = (List.range N).map fun i => (digit (m / 8) i : ZMod p) :=
      List.map_congr_left fun i _ => by simp only [Function.comp, Nat.succ_eq_add_one, digit_succ]
    rw [e2, ih (row + 1) (m / 8)]
    refine List.cons_eq_cons.2 ⟨by simp, List.map_congr_left fun i _ => ?_⟩
    simp only [Function.comp, Nat.succ_eq_add_one]
    rw [Nat.div_div_eq_div_mul, ← pow_succ', show row + 1 + i + 1 = row + (i + 1) + 1 by omega]

/-- The cells of the running sum of an honest prover. -/
def sumOf (cfg : RunningSum.Config C S) (reg m N : ℕ) : List (ACell C (ZMod p)) :=
  (List.range (N + 1)).map fun i => ⟨⟨reg, cfg.z, ((i : ℕ) : ℤ)⟩, ((m / 8 ^ i : ℕ) : ZMod p)⟩

/-- The operations of the decomposition. -/
def sumOps (cfg : RunningSum.Config C S) (reg m N : ℕ) (x : ACell C (ZMod p)) : List (Op C S (ZMod p)) :=
  [.advice ⟨reg, cfg.z, 0⟩ x.value, .equal ⟨reg, cfg.z, 0⟩ x.cell] ++
  (((List.range N).map fun i => .enable cfg.qRangeCheck reg ((i : ℕ) : ℤ)) ++
  ((List.range N).map fun i =>
    .advice ⟨reg, cfg.z, ((i + 1 : ℕ) : ℤ)⟩ ((m / 8 ^ (i + 1) : ℕ) : ZMod p)) ++
  [.const ⟨reg, cfg.z, ((N : ℕ) : ℤ)⟩ 0])

theorem copyDecompose_ok (hp : 8 < p) (cfg : RunningSum.Config C S) (reg : ℕ) (x : ACell C (ZMod p))
    {bits N : ℕ} (hbits : bits ≤ 256) (hN : N = (bits + 2) / 3) (hx : x.value.val < 2 ^ bits) (n : ℕ) :
    copyDecompose 256 3 cfg reg 0 x true bits N n
      = some (sumOf cfg reg x.value.val N, n, sumOps cfg reg x.value.val N x) := by
  have h8 : ((2 ^ 3 : ℕ) : ZMod p) = 8 := by norm_num
  have h8' := eight_ne hp
  obtain ⟨⟨zs, n', ops⟩, hr⟩ := (decompose_succeeds 256 3 cfg reg 0
    (⟨⟨reg, cfg.z, ((0 : ℕ) : ℤ)⟩, x.value⟩ : ACell C (ZMod p)) true bits N n
    (by rw [h8]; exact h8')).2 ⟨by norm_num, by norm_num, hbits, hN⟩
  obtain ⟨words, hw, hl, -, -, rfl, rfl, rfl⟩ := decompose_run hr
  rw [decomposeWord_eq 256 _ (by norm_num) (by norm_num) hbits] at hw
  cases hw
  have hwords : ((List.range ((bits + (3 - 1)) / 3)).map fun i =>
      x.value.val % 2 ^ bits / (2 ^ 3) ^ i % 2 ^ 3).map (fun (w : ℕ) => (w : ZMod p))
      = (List.range N).map fun i => (digit x.value.val i : ZMod p) := by
    rw [List.map_map, hN]
    refine List.map_congr_left fun i _ => ?_
    simp only [Function.comp, digit]
    rw [Nat.mod_eq_of_lt hx, show 2 ^ 3 = 8 from rfl]
  have hv : ((x.value.val : ℕ) : ZMod p) = x.value := ZMod.natCast_zmod_val _
  have hs := sumCells_explicit h8' reg cfg.z N 0 x.value.val
  rw [hv] at hs
  rw [hwords] at hr
  have hops : decomposeOps 3 cfg reg 0 (⟨⟨reg, cfg.z, ((0 : ℕ) : ℤ)⟩, x.value⟩ : ACell C (ZMod p)) true
      ((List.range N).map fun i => (digit x.value.val i : ZMod p)) =
      ((List.range N).map fun i => .enable cfg.qRangeCheck reg ((i : ℕ) : ℤ)) ++
      ((List.range N).map fun i =>
        .advice ⟨reg, cfg.z, ((i + 1 : ℕ) : ℤ)⟩ ((x.value.val / 8 ^ (i + 1) : ℕ) : ZMod p)) ++
      ([.const ⟨reg, cfg.z, ((N : ℕ) : ℤ)⟩ 0] : List (Op C S (ZMod p))) := by
    unfold decomposeOps
    rw [if_pos rfl, zs_last rfl]
    simp only [h8]
    rw [hs]
    simp only [List.length_map, List.length_range, zero_add, List.map_map]
    rfl
  have hzs : (⟨⟨reg, cfg.z, ((0 : ℕ) : ℤ)⟩, x.value⟩ : ACell C (ZMod p)) ::
      sumCells reg cfg.z ((2 ^ 3 : ℕ) : ZMod p)⁻¹ 0 x.value
        ((List.range N).map fun i => (digit x.value.val i : ZMod p)) = sumOf cfg reg x.value.val N := by
    rw [h8, hs, sumOf, List.range_succ_eq_map, List.map_cons, List.map_map]
    refine List.cons_eq_cons.2 ⟨by simp [hv], List.map_congr_left fun i _ => by simp⟩
  dsimp only at hr
  rw [hops, hzs] at hr
  unfold copyDecompose sumOps
  exact bind_of (ops₁ := [_, _]) rfl hr

theorem runningSum_windows (hp : 8 ≤ p) (hq : 8 ≤ q) (cfg : RunningSum.Config C S) (reg m N : ℕ) :
    runningSumToWindows q ((sumOf (p := p) cfg reg m N).map ACell.value)
      = some ((List.range N).map fun i => (digit m i : ZMod q)) := by
  unfold runningSumToWindows
  have h : List.zipWith (fun zCur zNext : ZMod p => zCur - zNext * 8)
      ((sumOf (p := p) cfg reg m N).map ACell.value) ((sumOf (p := p) cfg reg m N).map ACell.value).tail
      = ((List.range N).map (digit m)).map fun (k : ℕ) => (k : ZMod p) := by
    refine List.ext_getElem (by simp [sumOf]) fun i h1 h2 => ?_
    simp only [sumOf, List.map_map, List.getElem_zipWith, List.getElem_tail, List.getElem_map,
      List.getElem_range, Function.comp]
    rw [div_step m i]
    push_cast; ring
  rw [h, mapM_toScalar hp hq, List.map_map]
  · rfl
  · intro k hk
    obtain ⟨i, -, rfl⟩ := List.mem_map.1 hk
    exact digit_lt _ _

theorem sumOf_get (cfg : RunningSum.Config C S) (reg m N i : ℕ) (h : i ≤ N) :
    (sumOf (p := p) cfg reg m N)[i]? = some ⟨⟨reg, cfg.z, ((i : ℕ) : ℤ)⟩, ((m / 8 ^ i : ℕ) : ZMod p)⟩ := by
  unfold sumOf
  rw [List.getElem?_map, List.getElem?_range (by omega)]; rfl

/-- The first region of a multiplication by a running sum. -/
theorem sumFirst_complete (hg : Good b) {base : FixedPoint b} {N bits : ℕ} (h2 : 2 ≤ N)
    (hbits : bits ≤ 256) (hN : N = (bits + 2) / 3) (hv : base.Valid N)
    (hB : Large base.generator N) (hq : q • base.generator = 0) (hp8 : 8 < p) (hq8 : 8 ≤ q)
    {cfg : Config C S} (hc : cfg.Configured) (hd : cfg.Distinct) (x : ACell C (ZMod p))
    (hx : x.value.val < 2 ^ bits) (n : ℕ) :
    ∃ acc mulB ops, (do
        let zs ← copyDecompose 256 3 cfg.runningSum n 0 x true bits N
        let ks ← unwrap (runningSumToWindows q (zs.map ACell.value))
        let (acc, mulB) ← assignRegionInner cfg N n 0 ks base cfg.runningSum.qRangeCheck
        pure (zs, acc, mulB) : M C S (ZMod p) _) (n + 1)
          = some ((sumOf cfg.runningSum n x.value.val N, acc, mulB), n + 1, ops) ∧
      Val acc (psum (digit x.value.val) (N - 1) • base.generator) ∧
      Val mulB (entry base.generator N (N - 1) (digit x.value.val (N - 1))) ∧
      (∀ s r row, .enable s r row ∈ ops →
        s = cfg.runningSum.qRangeCheck ∨ s = cfg.addIncomplete.qAddIncomplete) ∧
      Consistent ops ∧
      (∀ G, Honest G ops → G.at x.cell = x.value → Sat (cfg.gates b) G ops ∧
        Holds G acc (psum (digit x.value.val) (N - 1) • base.generator) ∧
        Holds G mulB (entry base.generator N (N - 1) (digit x.value.val (N - 1))) ∧
        ∀ i ≤ N, G n cfg.runningSum.z ((i : ℕ) : ℤ) = ((x.value.val / 8 ^ i : ℕ) : ZMod p)) := by
  obtain ⟨d1, d2, d3⟩ := hd.ne
  obtain ⟨acc, mulB, oi, hrun, hvacc, hvmul, hen, hwr, hsat⟩ := inner_complete hg h2 hv hB hq hq8 hc
    (d := digit x.value.val) (fun i _ => digit_lt _ i) (toggle := cfg.runningSum.qRangeCheck) d2 n 0 (n + 1)
  have hlast : x.value.val / 8 ^ N = 0 := by
    refine Nat.div_eq_of_lt (lt_of_lt_of_le hx ?_)
    rw [show 8 = 2 ^ 3 by rfl, ← pow_mul]
    exact Nat.pow_le_pow_right (by norm_num) (by omega)
  refine ⟨acc, mulB, sumOps cfg.runningSum n x.value.val N x ++ (oi ++ []), ?_, hvacc, hvmul, ?_, ?_, ?_⟩
  · refine bind_of (copyDecompose_ok hp8 cfg.runningSum n x hbits hN hx (n + 1)) ?_
    refine bind_of (ops₁ := []) (unwrap_of (runningSum_windows hp8.le hq8 _ _ _ _) _) ?_
    exact bind_of hrun rfl
  · intro s r row hm
    rw [List.append_nil] at hm
    rcases List.mem_append.1 hm with hm | hm
    · simp only [sumOps, List.mem_append, List.mem_cons, List.mem_map, List.not_mem_nil, reduceCtorEq,
        or_false, false_or, and_false, exists_false, Op.enable.injEq] at hm
      obtain ⟨i, -, h, -⟩ := hm
      exact .inl h.symm
    · rcases hen _ _ _ hm with h | h
      · exact .inl h.1
      · exact .inr h
  · obtain ⟨f, hf, hfw⟩ := exists_fits hd.cols base N (digit x.value.val)
      (fun r => ((x.value.val / 8 ^ r.toNat : ℕ) : ZMod p))
    refine Written.consistent (reg := n) (f := f) (Written.append ?_ ((hwr f hf).append Written.nil))
    intro c v h
    simp only [sumOps, Assigned, List.mem_append, List.mem_cons, List.mem_map, List.not_mem_nil,
      reduceCtorEq, or_false, false_or, and_false, exists_false, Op.advice.injEq] at h
    rcases h with ⟨rfl, rfl⟩ | ⟨i, -, rfl, rfl⟩
    · refine ⟨rfl, ?_⟩
      dsimp only
      rw [hc.z, hfw]; simp
    · refine ⟨rfl, ?_⟩
      dsimp only
      rw [hc.z, hfw]; simp
  · intro G hG hxc
    rw [List.append_nil] at hG ⊢
    obtain ⟨s1, hhacc, hhmul, hcoords⟩ := hsat G hG.right
    have hrows : ∀ i ≤ N, G n cfg.runningSum.z ((i : ℕ) : ℤ) = ((x.value.val / 8 ^ i : ℕ) : ZMod p) := by
      intro i hi
      cases i with
      | zero =>
        have := hG.1 ⟨n, cfg.runningSum.z, 0⟩ x.value (by simp [sumOps])
        simpa [Grid.at] using this
      | succ i =>
        refine hG.1 ⟨n, cfg.runningSum.z, ((i + 1 : ℕ) : ℤ)⟩ _ (List.mem_append_left _ ?_)
        unfold sumOps
        exact List.mem_append_right _ (List.mem_append_left _ (List.mem_append_right _
          (List.mem_map.2 ⟨i, List.mem_range.2 (by omega), rfl⟩)))
    have hword : ∀ w < N, G.query n ((w + 0 : ℕ) : ℤ) cfg.runningSum.z 0
        - G.query n ((w + 0 : ℕ) : ℤ) cfg.runningSum.z 1 * 8 = (digit x.value.val w : ZMod p) := by
      intro w hw
      have h1 := hrows w hw.le
      have h2 := hrows (w + 1) hw
      simp only [Grid.query, add_zero]
      push_cast at h1 h2 ⊢
      rw [h1, h2]
      have := div_step x.value.val w
      have h3 := congrArg (fun k : ℕ => (k : ZMod p)) this
      push_cast at h3
      rw [h3]; ring
    refine ⟨⟨?_, ?_, ?_, fun c v hm => hG.2 c v hm⟩, hhacc, hhmul, hrows⟩
    · intro g hgm r row hm
      have hcase : (g.1 = cfg.runningSum.qRangeCheck ∧ r = n ∧ ∃ w < N, row = ((w + 0 : ℕ) : ℤ)) ∨
          (g.1 = cfg.addIncomplete.qAddIncomplete ∧ .enable g.1 r row ∈ oi) := by
        rcases List.mem_append.1 hm with hm | hm
        · simp only [sumOps, List.mem_append, List.mem_cons, List.mem_map, List.not_mem_nil, reduceCtorEq,
            or_false, false_or, and_false, exists_false, Op.enable.injEq] at hm
          obtain ⟨i, hi, h1, h2, h3⟩ := hm
          exact .inl ⟨h1.symm, h2.symm, i, List.mem_range.1 hi, h3.symm⟩
        · rcases hen _ _ _ hm with h | h
          · exact .inl h
          · exact .inr ⟨h, hm⟩
      rcases gates_cases hgm with h | ⟨h, -⟩ | ⟨h, hgg⟩
      · rcases hcase with ⟨-, rfl, w, hw, rfl⟩ | ⟨h', -⟩
        · simp only [Config.gates, RunningSum.gates, Add.gates, AddIncomplete.gates, List.mem_cons,
            List.mem_append, List.not_mem_nil, or_false] at hgm
          rcases hgm with rfl | (rfl | rfl) | rfl
          · intro f hf
            dsimp only at hf
            refine hcoords w hw f ?_
            rw [← hword w hw, hc.z]
            exact hf
          · intro f hf
            rw [List.mem_singleton.1 hf, show ((2 ^ 3 : ℕ) : ZMod p) = 8 by norm_num, hword w hw,
              rangeCheck_iff _ _ (by norm_num)]
            exact ⟨_, digit_lt _ _, rfl⟩
          · exact absurd h.symm d1
          · exact absurd h.symm d2
        · exact absurd (h.symm.trans h') d2
      · rcases hcase with ⟨h', -⟩ | ⟨h', -⟩
        · exact absurd (h'.symm.trans h) d1
        · exact absurd (h.symm.trans h') d3
      · rcases hcase with ⟨h', -⟩ | ⟨h', hm'⟩
        · exact absurd (h'.symm.trans h) d2
        · exact s1.gates g hgg r row hm'
    · intro y y' hm
      rcases List.mem_append.1 hm with hm | hm
      · simp only [sumOps, List.mem_append, List.mem_cons, List.mem_map, List.not_mem_nil, reduceCtorEq,
          or_false, false_or, and_false, exists_false, Op.equal.injEq] at hm
        obtain ⟨rfl, rfl⟩ := hm
        rw [hxc]
        exact hG.1 _ _ (by simp [sumOps])
      · exact s1.equal y y' hm
    · intro y v hm
      rcases List.mem_append.1 hm with hm | hm
      · simp only [sumOps, List.mem_append, List.mem_cons, List.mem_map, List.not_mem_nil, reduceCtorEq,
          or_false, false_or, and_false, exists_false, Op.const.injEq] at hm
        obtain ⟨rfl, rfl⟩ := hm
        have := hrows N le_rfl
        rw [hlast] at this
        simpa [Grid.at] using this
      · exact s1.const y v hm

end Verif.MulFixed
