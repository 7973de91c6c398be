import Verif.MulFixed.Inner
import Verif.MulFixed.Local

/-!
# Fixed-base multiplication: soundness

Whatever the assignment, if it meets the constraints then the point returned is the multiple of the
base given by the scalar.
-/

namespace Verif.MulFixed

open Verif.Region Verif.Ecc Verif.Utilities Verif.RunningSum

variable {C S : Type} {p q : ℕ} [Fact p.Prime] [Fact q.Prime] {b : ZMod p}

/-! ## Digits and running sums -/

theorem value_succ (d : ℕ → ℕ) (n : ℕ) : value d (n + 1) = d 0 + 8 * value (fun i => d (i + 1)) n := by
  induction n with
  | zero => simp [value]
  | succ n ih => rw [value, ih, value]; ring

theorem value_next (d : ℕ → ℕ) (n : ℕ) : value d (n + 1) = value d n + d n * 8 ^ n := rfl

theorem value_add (d : ℕ → ℕ) (n m : ℕ) :
    value d (n + m) = value d n + 8 ^ n * value (fun i => d (n + i)) m := by
  induction m with
  | zero => simp [value]
  | succ m ih => rw [← add_assoc, value, ih, value, pow_add]; ring

/-- A running sum that ends with zero. -/
theorem sum_value {z : ℕ → ZMod p} {d : ℕ → ℕ} {N : ℕ}
    (hstep : ∀ i < N, z i = (d i : ZMod p) + 8 * z (i + 1)) (hN : z N = 0) :
    ∀ n i, i + n = N → z i = (value (fun j => d (i + j)) n : ℕ) := by
  intro n
  induction n with
  | zero => intro i hi; rw [show i = N by omega, hN]; simp [value]
  | succ n ih =>
    intro i hi
    rw [hstep i (by omega), ih (i + 1) (by omega), value_succ]
    push_cast
    simp only [add_zero]
    refine congrArg (fun x : ZMod p => (d i : ZMod p) + 8 * x) ?_
    refine congrArg (fun f => ((value f n : ℕ) : ZMod p)) ?_
    funext j; congr 1; omega

/-- What a strict three-bit decomposition imposes. -/
theorem windows_sound {cfg : RunningSum.Config C S} {reg : ℕ} {alpha : ACell C (ZMod p)}
    {bits N n n' : ℕ} {zs : List (ACell C (ZMod p))} {ops : List (Op C S (ZMod p))}
    (h : copyDecompose 256 3 cfg reg 0 alpha true bits N n = some (zs, n', ops))
    {G : Grid C (ZMod p)} (hs : Sat (RunningSum.gates 3 cfg) G ops) :
    n' = n ∧ (∀ j ≤ N, ∀ c, zs[j]? = some c → c.cell = ⟨reg, cfg.z, (j : ℕ)⟩) ∧
      G.at alpha.cell = G reg cfg.z (0 : ℕ) ∧
      ∃ d : ℕ → ℕ, (∀ i < N, d i < 8) ∧
        (∀ i < N, G reg cfg.z (i : ℕ) = (d i : ZMod p) + 8 * G reg cfg.z ((i + 1 : ℕ) : ℤ)) ∧
        G reg cfg.z (N : ℕ) = 0 := by
  unfold copyDecompose at h
  obtain ⟨z₀, n1, o1, o1', h1, k1, rfl⟩ := bind_some h
  cases h1
  have hq := hs.equal ⟨reg, cfg.z, 0⟩ alpha.cell (by simp)
  obtain ⟨words, hw, hl, hK, h0, hn, hzs, hops⟩ := decompose_run k1
  have hcell : ∀ j ≤ N, ∀ c, zs[j]? = some c → c.cell = ⟨reg, cfg.z, (j : ℕ)⟩ := by
    intro j hj c hc
    rw [hzs] at hc
    have := zs_cell (reg := reg) (col := cfg.z) (offset := 0) (inv := ((2 ^ 3 : ℕ) : ZMod p)⁻¹)
      (z₀ := ⟨⟨reg, cfg.z, 0⟩, alpha.value⟩) rfl (words.map fun (w : ℕ) => (w : ZMod p)) j
      (by simp [hl]; omega)
    rw [List.getElem?_eq_some_iff] at hc
    obtain ⟨hc1, rfl⟩ := hc
    rw [zero_add] at this
    exact this
  obtain ⟨z, e, e0, hst, -, -⟩ := decompose_sound k1 rfl G hs.right
  have hz : ∀ j ≤ N, z j = G reg cfg.z (j : ℕ) := by
    intro j hj
    have hlen : j < zs.length := by
      have := congrArg List.length e
      simp at this; omega
    have := congrArg (fun l => l[j]?) e
    simp only [List.getElem?_map] at this
    rw [List.getElem?_eq_getElem hlen, List.getElem?_range (by omega)] at this
    simp only [Option.map_some, Option.some.injEq] at this
    rw [← this, hcell j hj _ (List.getElem?_eq_getElem hlen)]
    rfl
  have hlast : G reg cfg.z (N : ℕ) = 0 := by
    have hl' := hs.right.const _ 0 (by
      rw [hops]
      unfold decomposeOps
      exact List.mem_append_right _ (by rw [if_pos rfl]; exact List.mem_singleton.2 rfl))
    rw [zs_last (offset := 0) rfl] at hl'
    simp only [List.length_map, hl, zero_add] at hl'
    exact hl'
  refine ⟨hn, hcell, hq.symm, ?_⟩
  choose! d hd using hst
  refine ⟨d, fun i hi => (hd i hi).1, fun i hi => ?_, hlast⟩
  have := (hd i hi).2
  rw [hz i (by omega), hz (i + 1) (by omega)] at this
  rw [this]; norm_num

/-! ## The shared configuration -/

theorem gates_sum {cfg : Config C S} {G : Grid C (ZMod p)} {ops : List (Op C S (ZMod p))}
    (hs : Sat (cfg.gates b) G ops) : Sat (RunningSum.gates 3 cfg.runningSum) G ops :=
  hs.mono (fun _ h => by simp [Config.gates, h]) fun _ h => h

theorem gates_add {cfg : Config C S} {G : Grid C (ZMod p)} {ops : List (Op C S (ZMod p))}
    (hs : Sat (cfg.gates b) G ops) : Sat (Add.gates cfg.add) G ops :=
  hs.mono (fun _ h => by simp [Config.gates, h]) fun _ h => h

theorem gates_incomplete {cfg : Config C S} {G : Grid C (ZMod p)} {ops : List (Op C S (ZMod p))}
    (hs : Sat (cfg.gates b) G ops) : Sat (AddIncomplete.gates cfg.addIncomplete) G ops :=
  hs.mono (fun _ h => by simp [Config.gates, h]) fun _ h => h

/-- The first region of the multiplications that use a running sum. -/
theorem sumFirst_sound (hg : Good b) {base : FixedPoint b} {N : ℕ} (hN : 2 ≤ N)
    (hB : Large base.generator N) (hv : base.Valid N) {cfg : Config C S} (hc : cfg.Configured)
    {alpha : ACell C (ZMod p)} {reg bits n n' : ℕ} {zs : List (ACell C (ZMod p))}
    {acc mulB : EccPoint C (ZMod p)} {ops : List (Op C S (ZMod p))}
    (h : (do
      let zs ← copyDecompose 256 3 cfg.runningSum reg 0 alpha true bits N
      let ks ← unwrap (runningSumToWindows q (zs.map ACell.value))
      let (acc, mulB) ← assignRegionInner cfg N reg 0 ks base cfg.runningSum.qRangeCheck
      pure (zs, acc, mulB) : M C S (ZMod p) _) n = some ((zs, acc, mulB), n', ops))
    {G : Grid C (ZMod p)} (hs : Sat (cfg.gates b) G ops) :
    (∀ j ≤ N, ∀ c, zs[j]? = some c → c.cell = ⟨reg, cfg.window, (j : ℕ)⟩) ∧
    ∃ d : ℕ → ℕ, (∀ i < N, d i < 8) ∧ G.at alpha.cell = (value d N : ℕ) ∧
      (∀ i ≤ N, G reg cfg.window (i : ℕ) = (value (fun j => d (i + j)) (N - i) : ℕ)) ∧
      (∀ i < N, G reg cfg.window (i : ℕ) = (d i : ZMod p) + 8 * G reg cfg.window ((i + 1 : ℕ) : ℤ)) ∧
      Holds G acc (psum d (N - 1) • base.generator) ∧
      Holds G mulB (entry base.generator N (N - 1) (d (N - 1))) := by
  obtain ⟨zs', n1, o1, o1', h1, k1, rfl⟩ := bind_some h
  obtain ⟨ks, n2, o2, o2', h2, k2, rfl⟩ := bind_some k1
  obtain ⟨-, rfl, rfl⟩ := unwrap_some h2
  obtain ⟨⟨acc', mulB'⟩, n3, o3, o3', h3, k3, rfl⟩ := bind_some k2
  cases k3
  obtain ⟨-, hcell, ha, d, hd, hstep, hlast⟩ := windows_sound h1 (gates_sum hs).left
  rw [hc.z] at hcell ha hstep hlast
  have hval := sum_value (z := fun i => G reg cfg.window (i : ℕ)) hstep hlast
  have hin := inner_sound hg hN hB hv h3 ((gates_incomplete hs).mono (fun _ h => h) fun op hm => by
    simp [hm]) hd (by
    intro w hw hen
    have := hs.gates _ (List.mem_cons_self ..) reg ((w + 0 : ℕ) : ℤ) (by
      simp only [List.mem_append]; exact .inr (.inr (.inl hen)))
    have e : G.query reg ((w + 0 : ℕ) : ℤ) cfg.window 0 -
        G.query reg ((w + 0 : ℕ) : ℤ) cfg.window 1 * 8 = (d w : ZMod p) := by
      simp only [Grid.query, add_zero]
      have e1 : ((w : ℕ) : ℤ) + 1 = ((w + 1 : ℕ) : ℤ) := by push_cast; ring
      rw [e1, hstep w hw]; ring
    rw [← e]
    exact this)
  refine ⟨hcell, d, hd, ?_, ?_, hstep, hin.1, hin.2⟩
  · rw [ha]
    have := hval N 0 (by omega)
    simpa using this
  · intro i hi
    exact hval (N - i) i (by omega)

/-! ## Full-width scalars -/

namespace FullWidth

theorem assignWindows_run (cfg : Config C S) (reg offset idx : ℕ) (ks : List ℕ) (n : ℕ)
    {ws : List (ACell C (ZMod p))} {n' : ℕ} {ops : List (Op C S (ZMod p))}
    (h : assignWindows cfg reg offset idx ks n = some (ws, n', ops)) :
    ws = ks.mapIdx fun i (k : ℕ) => ⟨⟨reg, cfg.super.window, ((offset + (idx + i) : ℕ) : ℤ)⟩, (k : ZMod p)⟩ := by
  induction ks generalizing idx n n' ws ops with
  | nil => cases h; rfl
  | cons k ks ih =>
    unfold assignWindows at h
    obtain ⟨a, n1, o1, o1', h1, k1, rfl⟩ := bind_some h
    cases h1
    obtain ⟨rest, n2, o2, o2', h2, k2, rfl⟩ := bind_some k1
    cases k2
    rw [ih _ _ h2, List.mapIdx_cons]
    simp only [add_zero]
    refine congrArg _ ?_
    refine congrArg (fun f => List.mapIdx f ks) ?_
    funext i k
    rw [show offset + (idx + 1 + i) = offset + (idx + (i + 1)) by omega]

/-- **C61**, soundness: whatever the assignment, the windows returned hold digits below 8, and the
point is the multiple of the base by the number with these digits. -/
theorem assign_sound (hg : Good b) {base : FixedPoint b} (hB : Large base.generator numWindows)
    (hv : base.Valid numWindows) {cfg : Config C S} {scalar : ZMod q} {n n' : ℕ}
    {r : EccPoint C (ZMod p)} {ws : List (ACell C (ZMod p))} {ops : List (Op C S (ZMod p))}
    (h : assign cfg scalar base n = some ((r, ws), n', ops)) {G : Grid C (ZMod p)}
    (hs : Sat (gates b cfg) G ops) :
    ∃ d : ℕ → ℕ, (∀ i < numWindows, d i < 8) ∧
      ws.map (fun c => G.at c.cell) = (List.range numWindows).map (fun i => (d i : ZMod p)) ∧
      Holds G r (value d numWindows • base.generator) := by
  unfold assign at h
  obtain ⟨⟨ws', acc, mulB⟩, n1, o1, o1', h1, k1, rfl⟩ := bind_some h
  obtain ⟨r', n2, o2, o2', h2, k2, rfl⟩ := bind_some k1
  cases k2
  have hsup : Sat (cfg.super.gates b) G (o1 ++ (o2 ++ [])) :=
    hs.mono (fun _ h => List.mem_cons_of_mem _ h) fun _ h => h
  unfold Region.assignRegion at h1 h2
  obtain ⟨ws'', n3, o3, o3', h3, k3, rfl⟩ := bind_some h1
  obtain ⟨ks, n4, o4, o4', h4, k4, rfl⟩ := bind_some k3
  obtain ⟨-, rfl, rfl⟩ := unwrap_some h4
  obtain ⟨⟨acc', mulB'⟩, n5, o5, o5', h5, k5, rfl⟩ := bind_some k4
  cases k5
  unfold witness at h3
  obtain ⟨u6, n6, o6, o6', h6, k6, rfl⟩ := bind_some h3
  rw [enableRows_run] at h6
  cases h6
  obtain ⟨words, n7, o7, o7', h7, k7, rfl⟩ := bind_some k6
  obtain ⟨-, rfl, rfl⟩ := unwrap_some h7
  obtain ⟨u8, n8, o8, o8', h8, k8, rfl⟩ := bind_some k7
  obtain ⟨hlen, rfl, rfl⟩ := assert_some h8
  have hws := assignWindows_run _ _ _ _ _ _ k8
  have hrow : ∀ w < numWindows, ∀ f ∈ coordsCheck b cfg.super (G.query n ((w : ℕ) : ℤ))
      (G n cfg.super.window (w : ℕ)) ++ [rangeCheck (G n cfg.super.window (w : ℕ)) 8], f = 0 := by
    intro w hw
    have := hs.gates _ (List.mem_cons_self ..) n ((w : ℕ) : ℤ) (by
      refine List.mem_append_left _ (List.mem_append_left _ (List.mem_append_left _ ?_))
      exact List.mem_map.2 ⟨w, List.mem_range.2 hw, by simp⟩)
    simpa only [Grid.query, add_zero] using this
  have hdig : ∀ w < numWindows, ∃ k < 8, G n cfg.super.window (w : ℕ) = ((k : ℕ) : ZMod p) := by
    intro w hw
    exact (rangeCheck_iff _ 8 (by norm_num)).1 (hrow w hw _ (by simp))
  choose! d hd using hdig
  have hin := inner_sound hg (by decide) hB hv h5 ((gates_incomplete hsup).mono (fun _ h => h)
    fun op hm => by simp [hm]) (fun i hi => (hd i hi).1) (by
      intro w hw _ f hf
      refine hrow w hw f ?_
      rw [(hd w hw).2]
      exact List.mem_append_left _ hf)
  refine ⟨d, fun i hi => (hd i hi).1, ?_, ?_⟩
  · rw [hws]
    refine List.ext_getElem (by simp [hlen]) fun i hi hi' => ?_
    simp only [List.length_map, List.length_range] at hi'
    simp only [List.getElem_map, List.getElem_mapIdx, List.getElem_range, zero_add]
    exact (hd i hi').2
  · have := Add.sound hg h2 G ((gates_add hsup).right.left) hin.2 hin.1
    rwa [show numWindows - 1 = 84 from rfl, show numWindows = 84 + 1 from rfl, total] at this

end FullWidth

/-! ## Short signed scalars -/

namespace Short

/-- The signed point. -/
theorem signed_point (hg : Good b) {P : Pt b} {x y s y' : ZMod p} (hP : enc P = (x, y))
    (hs : s ^ 2 = 1) (hy : s * y' = y) :
    (s = 1 ∧ enc P = (x, y')) ∨ (s = -1 ∧ enc (-P) = (x, y')) := by
  have h2 : (s - 1) * (s + 1) = 0 := by linear_combination hs
  have h3 : s = 1 ∨ s = -1 := by
    rcases mul_eq_zero.1 h2 with h | h
    · exact .inl (sub_eq_zero.1 h)
    · exact .inr (eq_neg_of_add_eq_zero_left h)
  rcases h3 with rfl | rfl
  · exact .inl ⟨rfl, by rw [hP, ← hy, one_mul]⟩
  · refine .inr ⟨rfl, ?_⟩
    rw [enc_neg hg, hP, ← hy]; simp

/-- **C62**, soundness: whatever the assignment, the magnitude is an integer below `2^64`, the sign
is `1` or `-1`, and the point is the signed multiple of the base. -/
theorem assign_sound (hg : Good b) (hp : 8 < p) {base : FixedPoint b}
    (hB : Large base.generator numWindowsShort) (hv : base.Valid numWindowsShort) {cfg : Config C S}
    (hc : cfg.super.Configured) {magnitude sign : ACell C (ZMod p)} {n n' : ℕ}
    {r : EccPoint C (ZMod p)} {zs : List (ACell C (ZMod p))} {ops : List (Op C S (ZMod p))}
    (h : assign q cfg magnitude sign base n = some ((r, zs), n', ops)) {G : Grid C (ZMod p)}
    (hs : Sat (gates b cfg) G ops) :
    ∃ m < 2 ^ 64, G.at magnitude.cell = ((m : ℕ) : ZMod p) ∧
      ((G.at sign.cell = 1 ∧ Holds G r (m • base.generator)) ∨
        (G.at sign.cell = -1 ∧ Holds G r (-(m • base.generator)))) := by
  unfold assign at h
  obtain ⟨⟨zs', acc, mulB⟩, n1, o1, o1', h1, k1, rfl⟩ := bind_some h
  obtain ⟨z21, n2, o2, o2', h2, k2, rfl⟩ := bind_some k1
  obtain ⟨hz21, rfl, rfl⟩ := unwrap_some h2
  obtain ⟨r', n3, o3, o3', h3, k3, rfl⟩ := bind_some k2
  cases k3
  have hsup : Sat (cfg.super.gates b) G (o1 ++ ([] ++ (o3 ++ []))) :=
    hs.mono (fun _ h => List.mem_cons_of_mem _ h) fun _ h => h
  unfold Region.assignRegion at h1 h3
  obtain ⟨hcell, d, hd, ha, hval, -, hacc, hmul⟩ := sumFirst_sound hg (by decide) hB hv hc h1 hsup.left
  unfold lastWindow at h3
  obtain ⟨mag, n4, o4, o4', h4, k4, rfl⟩ := bind_some h3
  have hadd := Add.sound hg h4 G ((gates_add hsup).right.right.left.left) hmul hacc
  rw [Add.run] at h4
  cases h4
  obtain ⟨sg, n5, o5, o5', h5, k5, rfl⟩ := bind_some k4
  cases h5
  obtain ⟨zc, n6, o6, o6', h6, k6, rfl⟩ := bind_some k5
  cases h6
  cases k6
  have hgate := hs.gates _ (List.mem_cons_self ..) n2 1 (by simp)
  have hsign := hs.equal ⟨n2, cfg.super.window, 1⟩ sign.cell (by simp)
  have hz := hs.equal ⟨n2, cfg.super.u, 1⟩ z21.cell (by simp)
  simp only [Grid.query, add_zero, polys, List.mem_cons, List.not_mem_nil, or_false,
    forall_eq_or_imp, forall_eq] at hgate
  obtain ⟨g1, g2, -, g4⟩ := hgate
  have hc21 := hcell 21 (by decide) z21 hz21
  rw [hc21] at hz
  have hd21 : G n cfg.super.window (21 : ℕ) = (d 21 : ZMod p) := by
    rw [hval 21 (by decide), show numWindowsShort - 21 = 1 from rfl]
    simp [value]
  have h21 : d 21 < 2 := by
    have e : G n2 cfg.super.u 1 = (d 21 : ZMod p) := hz.trans hd21
    rw [e, boolCheck_iff] at g1
    have h8 := hd 21 (by decide)
    rcases g1 with g | g
    · have := LookupRange.cast_inj (p := p) (a := d 21) (b := 0) (by omega) (by omega) (by exact_mod_cast g)
      omega
    · have := LookupRange.cast_inj (p := p) (a := d 21) (b := 1) (by omega) (by omega) (by exact_mod_cast g)
      omega
  rw [show numWindowsShort - 1 = 21 from rfl, show numWindowsShort = 21 + 1 from rfl, total] at hadd
  refine ⟨value d 22, ?_, ha, ?_⟩
  · have h1 : value d 21 < 8 ^ 21 := value_lt fun i hi => hd i (lt_trans hi (by decide))
    rw [value]
    have h2 : d 21 * 8 ^ 21 ≤ 1 * 8 ^ 21 := Nat.mul_le_mul_right _ (by omega)
    norm_num at h1 h2 ⊢
    omega
  · have hsg : G n2 cfg.super.window 1 = G.at sign.cell := hsign
    rw [hsg] at g2 g4
    exact signed_point hg hadd (sub_eq_zero.1 g2) (sub_eq_zero.1 g4)

/-- **C64**, soundness: whatever the assignment, the sign is `1` or `-1` and the point is the
signed input. -/
theorem assignScalarSign_sound (hg : Good b) {cfg : Config C S} {sign : ACell C (ZMod p)}
    {point r : EccPoint C (ZMod p)} {n n' : ℕ} {ops : List (Op C S (ZMod p))}
    (h : assignScalarSign cfg sign point n = some (r, n', ops)) {G : Grid C (ZMod p)}
    (hs : Sat (gates b cfg) G ops) {P : Pt b} (hP : Holds G point P) :
    (G.at sign.cell = 1 ∧ Holds G r P) ∨ (G.at sign.cell = -1 ∧ Holds G r (-P)) := by
  cases h
  have hgate := hs.gates _ (List.mem_cons_self ..) n 0 (by simp)
  have hsign := hs.equal ⟨n, cfg.super.window, 0⟩ sign.cell (by simp)
  have hy := hs.equal ⟨n, cfg.super.add.yQR, 0⟩ point.y.cell (by simp)
  simp only [Grid.query, add_zero, polys, List.mem_cons, List.not_mem_nil, or_false,
    forall_eq_or_imp, forall_eq] at hgate
  obtain ⟨-, g2, -, g4⟩ := hgate
  have hsg : G n cfg.super.window 0 = G.at sign.cell := hsign
  have hyg : G n cfg.super.add.yQR 0 = G.at point.y.cell := hy
  rw [hsg] at g2 g4
  rw [hyg] at g4
  exact signed_point hg hP (sub_eq_zero.1 g2) (sub_eq_zero.1 g4)

end Short

/-! ## Base field elements -/

namespace BaseFieldElem

/-- The canonicity checks leave the canonical decomposition only. -/
theorem canonical (hp : p = 2 ^ 254 + T_P) {d : ℕ → ℕ} (hd : ∀ i < 85, d i < 8)
    {alpha z84 alpha1 alpha2 alpha0' z13 z44 z43 : ZMod p} (ha : alpha = (value d 85 : ℕ))
    (h84 : z84 = (d 84 : ℕ)) (h44 : z44 = (value (fun j => d (44 + j)) 41 : ℕ))
    (h43 : z43 - z44 * 8 = (d 43 : ℕ))
    (hm : ∃ m < 2 ^ 130, alpha0' = ((m : ℕ) : ZMod p) + ((2 ^ 130 : ℕ) : ZMod p) * z13)
    (h : ∀ f ∈ polys alpha z84 alpha1 alpha2 alpha0' z13 z44 z43, f = 0) :
    alpha.val = value d 85 := by
  simp only [polys, List.mem_cons, List.not_mem_nil, or_false, forall_eq_or_imp, forall_eq] at h
  obtain ⟨g1, g2, g3, g4, g5, g6, g7, g8⟩ := h
  have hbig : 2 ^ 254 < p := by rw [hp]; unfold T_P; norm_num
  have hT : 0 < T_P ∧ T_P < 2 ^ 126 := by unfold T_P; norm_num
  have h8p : 8 < p := lt_of_le_of_lt (by norm_num) hbig
  have hd84 := hd 84 (by norm_num)
  -- the number is below the modulus
  suffices hlt : value d 85 < p by rw [ha, ZMod.val_natCast, Nat.mod_eq_of_lt hlt]
  have hsplit : value d 85 = value d 84 + d 84 * 8 ^ 84 := value_next d 84
  have hv84 : value d 84 < 8 ^ 84 := value_lt fun i hi => hd i (by omega)
  rw [(boolCheck_iff alpha2)] at g6
  rw [rangeCheck_iff _ _ (by norm_num)] at g5
  obtain ⟨k, hk, rfl⟩ := g5
  have e84 : (8 : ℕ) ^ 84 = 2 ^ 252 := by norm_num
  rcases g6 with rfl | rfl
  · have : d 84 = k := by
      refine LookupRange.cast_inj (p := p) (by omega) (by omega) ?_
      rw [← h84]; linear_combination g7
    have : d 84 * 8 ^ 84 ≤ 3 * 8 ^ 84 := Nat.mul_le_mul_right _ (by omega)
    rw [hsplit]
    norm_num at *
    omega
  · have hk0 : (k : ZMod p) = 0 := by linear_combination g1
    rw [hk0] at g7
    have hd4 : d 84 = 4 := by
      refine LookupRange.cast_inj (p := p) (by omega) (by omega) ?_
      rw [← h84]; push_cast; linear_combination g7
    -- the middle digits vanish
    have hs44 : value (fun j => d (44 + j)) 41 = value (fun j => d (44 + j)) 40 + d 84 * 8 ^ 40 :=
      value_next (fun j => d (44 + j)) 40
    have hV : value (fun j => d (44 + j)) 40 < 8 ^ 40 := value_lt fun i hi => hd _ (by omega)
    have hV0 : value (fun j => d (44 + j)) 40 = 0 := by
      refine LookupRange.cast_inj (p := p) (by omega) (by omega) ?_
      have e : z44 = (value (fun j => d (44 + j)) 40 : ℕ) + 4 * (2 ^ 120 : ℕ) := by
        rw [h44, hs44, hd4]
        push_cast; norm_num
      rw [h84, hd4, e] at g2
      push_cast at g2 ⊢
      linear_combination g2
    have hd43 : d 43 < 2 := by
      rw [one_mul, h43, boolCheck_iff] at g3
      have := hd 43 (by norm_num)
      rcases g3 with g | g
      · have := LookupRange.cast_inj (p := p) (a := d 43) (b := 0) (by omega) (by omega)
          (by exact_mod_cast g)
        omega
      · have := LookupRange.cast_inj (p := p) (a := d 43) (b := 1) (by omega) (by omega)
          (by exact_mod_cast g)
        omega
    have hs84 : value d 84 = value d 44 + 8 ^ 44 * value (fun j => d (44 + j)) 40 := value_add d 44 40
    rw [hV0, mul_zero, add_zero] at hs84
    have hv43 : value d 43 < 8 ^ 43 := value_lt fun i hi => hd i (by omega)
    have hv44 : value d 44 < 2 ^ 130 := by
      rw [show value d 44 = value d 43 + d 43 * 8 ^ 43 from value_next d 43]
      have : d 43 * 8 ^ 43 ≤ 1 * 8 ^ 43 := Nat.mul_le_mul_right _ (by omega)
      norm_num at *
      omega
    -- the low digits are below `t_p`
    have hA : value d 85 = value d 44 + 2 ^ 254 := by
      rw [hsplit, hd4, hs84]
      norm_num
    obtain ⟨m, hm, e⟩ := hm
    rw [one_mul] at g4
    rw [g4, mul_zero, add_zero] at e
    have hlow : value d 44 + 2 ^ 130 - T_P = m := by
      refine LookupRange.cast_inj (p := p) (by omega) (by omega) ?_
      rw [Nat.cast_sub (by omega), ← e, Nat.cast_add]
      have e8 : alpha = (value d 44 : ℕ) + z84 * ((2 ^ 126 : ℕ) : ZMod p) ^ 2 := by
        rw [ha, hA, h84, hd4]; push_cast; ring
      rw [e8] at g8
      push_cast at g8 ⊢
      linear_combination -g8
    rw [hA, hp]
    omega

/-- **C63**, soundness: whatever the assignment, the point is the multiple of the base by the
canonical integer representing the scalar. -/
theorem assign_sound (hg : Good b) (hp : p = 2 ^ 254 + T_P) {base : FixedPoint b}
    (hB : Large base.generator numWindows) (hv : base.Valid numWindows) {cfg : Config C S}
    (hc : cfg.super.Configured) (hl : cfg.lookup.Distinct) {scalar : ACell C (ZMod p)} {n n' : ℕ}
    {r : EccPoint C (ZMod p)} {ops tot : List (Op C S (ZMod p))}
    (h : assign q cfg scalar base n = some (r, n', ops)) (hpart : PartOf ops tot n n')
    {G : Grid C (ZMod p)} (hs : Sat (gates b cfg) G tot)
    (hlk : ∀ reg, SatLookup (LookupRange.lookup 10 cfg.lookup) G tot reg) :
    Holds G r ((G.at scalar.cell).val • base.generator) := by
  have hlkg : Sat (LookupRange.gates 10 cfg.lookup) G tot :=
    hs.mono (fun _ h => by simp [gates, h]) fun _ h => h
  replace hs : Sat (gates b cfg) G ops := hs.mono (fun _ h => h) hpart.sub
  unfold assign at h
  obtain ⟨⟨zs, acc, mulB⟩, n1, o1, o1', h1, k1, rfl⟩ := bind_some h
  have hpart1 := (PartOf.bind (Local.assignRegion sumFirst_acts) (by
    exact (Local.assignRegion fun _ => add_acts).bind fun _ =>
      Local.unwrap.bind fun _ => Local.unwrap.bind fun _ => Local.unwrap.bind fun _ =>
      Local.unwrap.bind fun _ => witnessCheck_local.bind fun _ => Local.unwrap.bind fun _ =>
        Local.unwrap.bind fun _ => (Local.assignRegion canonRegion_acts).bind fun _ =>
          Local.pure _) h1 k1 hpart).2
  obtain ⟨r', n2, o2, o2', h2, k2, rfl⟩ := bind_some k1
  have hpart2 := (PartOf.bind (Local.assignRegion fun _ => add_acts) (by
    exact Local.unwrap.bind fun _ => Local.unwrap.bind fun _ => Local.unwrap.bind fun _ =>
      Local.unwrap.bind fun _ => witnessCheck_local.bind fun _ => Local.unwrap.bind fun _ =>
        Local.unwrap.bind fun _ => (Local.assignRegion canonRegion_acts).bind fun _ =>
          Local.pure _) h2 k2 hpart1).2
  obtain ⟨al, n3, o3, o3', h3, k3, rfl⟩ := bind_some k2
  obtain ⟨hal, rfl, rfl⟩ := unwrap_some h3
  obtain ⟨z43, n4, o4, o4', h4, k4, rfl⟩ := bind_some k3
  obtain ⟨hz43, rfl, rfl⟩ := unwrap_some h4
  obtain ⟨z44, n5, o5, o5', h5, k5, rfl⟩ := bind_some k4
  obtain ⟨hz44, rfl, rfl⟩ := unwrap_some h5
  obtain ⟨z84, n6, o6, o6', h6, k6, rfl⟩ := bind_some k5
  obtain ⟨hz84, rfl, rfl⟩ := unwrap_some h6
  dsimp only at k6
  obtain ⟨ws, n7, o7, o7', h7, k7, rfl⟩ := bind_some k6
  have hpart3 := (PartOf.bind witnessCheck_local (by
    exact Local.unwrap.bind fun _ => Local.unwrap.bind fun _ =>
      (Local.assignRegion canonRegion_acts).bind fun _ => Local.pure _) h7 k7 hpart2).1
  obtain ⟨a0, n8, o8, o8', h8, k8, rfl⟩ := bind_some k7
  obtain ⟨ha0, rfl, rfl⟩ := unwrap_some h8
  obtain ⟨z13, n9, o9, o9', h9, k9, rfl⟩ := bind_some k8
  obtain ⟨hz13, rfl, rfl⟩ := unwrap_some h9
  obtain ⟨u10, n10, o10, o10', h10, k10, rfl⟩ := bind_some k9
  cases k10
  have hsup : Sat (cfg.super.gates b) G (o1 ++ (o2 ++ (o7 ++ o10))) :=
    hs.mono (fun _ h => by simp [gates, h]) fun _ h => by simpa using h
  unfold Region.assignRegion at h1 h2 h10
  obtain ⟨hcell, d, hd, ha, hval, hstep, hacc, hmul⟩ :=
    sumFirst_sound hg (by decide) hB hv hc h1 hsup.left
  have hadd := Add.sound hg h2 G ((gates_add hsup).right.left) hmul hacc
  rw [show numWindows - 1 = 84 from rfl, show numWindows = 84 + 1 from rfl, total] at hadd
  -- the range check
  unfold LookupRange.witnessCheck Region.assignRegion at h7
  obtain ⟨w0, n11, o11, o11', h11, k11, rfl⟩ := bind_some h7
  cases h11
  have hloc := LookupRange.rangeCheck_run (reprBits := 256) (capacity := 254) (K := 10) (numWords := 13)
    (cfg := cfg.lookup) (reg := n6) (strict := false) (n := n6 + 1)
    (element := ⟨⟨n6, cfg.lookup.runningSum, ((0 : ℕ) : ℤ)⟩, al.value - z84.value *
      (((2 ^ 126 : ℕ) : ZMod p)) ^ 2 + (((2 ^ 65 : ℕ) : ZMod p)) ^ 2 - (T_P : ZMod p)⟩)
    (by norm_num) (by norm_num) (by norm_num) (by norm_num) (by rw [hp]; unfold T_P; norm_num) rfl
  obtain ⟨z, hz, hz0, -, ⟨m, hm, em⟩, -⟩ := LookupRange.rangeCheck_sound hl (by rfl) k11 (by norm_num)
    (by norm_num) (by norm_num) (by norm_num) (by rw [hp]; unfold T_P; norm_num)
    (fun op hm => hpart3.sub op (List.mem_append_right _ hm))
    (fun s row hm => by
      have := hpart3.own s n6 row (le_refl _) (by
        have e := hloc.symm.trans k11
        simp only [Option.some.injEq, Prod.mk.injEq] at e
        omega) hm
      simpa using this)
    G hlkg (hlk n6)
  -- the canonicity checks
  unfold canonRegion at h10
  obtain ⟨u12, n12, o12, o12', h12, k12, rfl⟩ := bind_some h10
  cases h12
  obtain ⟨c13, n13, o13, o13', h13, k13, rfl⟩ := bind_some k12
  cases h13
  obtain ⟨c14, n14, o14, o14', h14, k14, rfl⟩ := bind_some k13
  cases h14
  obtain ⟨c15, n15, o15, o15', h15, k15, rfl⟩ := bind_some k14
  cases h15
  obtain ⟨a1, n16, o16, o16', h16, k16, rfl⟩ := bind_some k15
  obtain ⟨-, rfl, rfl⟩ := unwrap_some h16
  obtain ⟨c17, n17, o17, o17', h17, k17, rfl⟩ := bind_some k16
  cases h17
  obtain ⟨a2, n18, o18, o18', h18, k18, rfl⟩ := bind_some k17
  obtain ⟨-, rfl, rfl⟩ := unwrap_some h18
  cases k18
  have hgate := hs.gates _ (List.mem_cons_self ..) n9 1 (by simp)
  have e1 := hs.equal ⟨n9, cfg.canonAdvices 0, 0⟩ al.cell (by simp)
  have e2 := hs.equal ⟨n9, cfg.canonAdvices 2, 0⟩ z84.cell (by simp)
  have e3 := hs.equal ⟨n9, cfg.canonAdvices 0, 1⟩ a0.cell (by simp)
  have e4 := hs.equal ⟨n9, cfg.canonAdvices 0, 2⟩ z13.cell (by simp)
  have e5 := hs.equal ⟨n9, cfg.canonAdvices 1, 2⟩ z44.cell (by simp)
  have e6 := hs.equal ⟨n9, cfg.canonAdvices 2, 2⟩ z43.cell (by simp)
  rw [hcell 0 (by decide) al hal] at e1
  rw [hcell 84 (by decide) z84 hz84] at e2
  rw [hcell 44 (by decide) z44 hz44] at e5
  rw [hcell 43 (by decide) z43 hz43] at e6
  have ha0' : G.at a0.cell = z 0 := by
    have := congrArg (fun l => l[0]?) hz
    simpa [ha0] using this
  have hz13' : G.at z13.cell = z 13 := by
    have := congrArg (fun l => l[13]?) hz
    simpa [hz13] using this
  have hv0 := hval 0 (by decide)
  simp only [zero_add] at hv0
  have hcan := canonical hp hd (alpha := G n9 (cfg.canonAdvices 0) 0) (z84 := G n9 (cfg.canonAdvices 2) 0)
    (z44 := G n9 (cfg.canonAdvices 1) 2) (z43 := G n9 (cfg.canonAdvices 2) 2)
    (alpha0' := G n9 (cfg.canonAdvices 0) 1) (z13 := G n9 (cfg.canonAdvices 0) 2)
    (e1.trans hv0) (e2.trans (by
      have := hval 84 (by decide)
      rw [show numWindows - 84 = 1 from rfl] at this
      simpa [value, Grid.at] using this))
    (e5.trans (hval 44 (by decide)))
    (by
      have h1 : G n9 (cfg.canonAdvices 2) 2 = _ := e6
      have h2 : G n9 (cfg.canonAdvices 1) 2 = _ := e5
      have := hstep 43 (by decide)
      rw [h1, h2]
      simp only [Grid.at]
      rw [this]; push_cast; ring)
    ⟨m, hm, by
      have h1 : G n9 (cfg.canonAdvices 0) 1 = _ := e3
      have h2 : G n9 (cfg.canonAdvices 0) 2 = _ := e4
      rw [h1, h2, ha0', hz13']; exact em⟩
    hgate
  have hfin : G.at scalar.cell = G n9 (cfg.canonAdvices 0) 0 := by
    rw [ha]; exact ((e1.trans hv0).symm)
  rw [hfin, hcan]
  exact hadd

end BaseFieldElem

end Verif.MulFixed
