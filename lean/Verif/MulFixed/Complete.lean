import Verif.MulFixed.Sound
import Verif.Merkle.Complete

/-!
# Fixed-base multiplication: the shared region is complete
-/

namespace Verif.MulFixed

open Verif.Region Verif.Ecc Verif.Utilities Verif.RunningSum

variable {C S : Type} {p q : ℕ} [Fact p.Prime] [Fact q.Prime] {b : ZMod p}

/-! ## Values by column and row -/

/-- The values assigned in a region agree with a function of column and row. -/
def Written (reg : ℕ) (f : C → ℤ → ZMod p) (ops : List (Op C S (ZMod p))) : Prop :=
  ∀ c v, Assigned ops c v → c.reg = reg ∧ v = f c.col c.row

theorem Written.append {reg : ℕ} {f : C → ℤ → ZMod p} {o o' : List (Op C S (ZMod p))}
    (h : Written reg f o) (h' : Written reg f o') : Written reg f (o ++ o') := fun c v hv =>
  (Assigned.append.1 hv).elim (h c v) (h' c v)

theorem Written.consistent {reg : ℕ} {f : C → ℤ → ZMod p} {o : List (Op C S (ZMod p))}
    (h : Written reg f o) : Consistent o := fun c v w hv hw =>
  (h c v hv).2.trans (h c w hw).2.symm

theorem Written.nil {reg : ℕ} {f : C → ℤ → ZMod p} : Written reg f ([] : List (Op C S (ZMod p))) := by
  intro c v h; simp [Assigned] at h

theorem exists_fun {V : Type} [Nonempty V] (L : List (C × V)) (h : (L.map Prod.fst).Nodup) :
    ∃ f : C → V, ∀ e ∈ L, f e.1 = e.2 := by
  classical
  induction L with
  | nil => exact ⟨fun _ => Classical.arbitrary V, by simp⟩
  | cons e L ih =>
    rw [List.map_cons, List.nodup_cons] at h
    obtain ⟨f, hf⟩ := ih h.2
    refine ⟨Function.update f e.1 e.2, fun e' he' => ?_⟩
    rcases List.mem_cons.1 he' with rfl | he'
    · simp
    · rw [Function.update_of_ne, hf e' he']
      intro he
      exact h.1 (List.mem_map.2 ⟨e', he', he⟩)

/-- The honest values of the shared region. -/
structure Fits (cfg : Config C S) (base : FixedPoint b) (N offset : ℕ) (d : ℕ → ℕ)
    (f : C → ℤ → ZMod p) : Prop where
  xP : ∀ w < N, f cfg.add.xP ((offset + w : ℕ) : ℤ) = (enc (entry base.generator N w (d w))).1
  yP : ∀ w < N, f cfg.add.yP ((offset + w : ℕ) : ℤ) = (enc (entry base.generator N w (d w))).2
  u : ∀ w < N, f cfg.u ((offset + w : ℕ) : ℤ) = (base.u.getD w []).getD (d w) 0
  xQR : ∀ w < N, f cfg.addIncomplete.xQR ((offset + w : ℕ) : ℤ) = (enc (psum d w • base.generator)).1
  yQR : ∀ w < N, f cfg.addIncomplete.yQR ((offset + w : ℕ) : ℤ) = (enc (psum d w • base.generator)).2
  coeffs : ∀ w < N, ∀ k : Fin 8, f (cfg.lagrangeCoeffs k) ((w + offset : ℕ) : ℤ)
    = (base.lagrangeCoeffs.getD w []).getD k.val 0
  z : ∀ w < N, f cfg.fixedZ ((w + offset : ℕ) : ℤ) = ((base.z.getD w 0 : ℕ) : ZMod p)

/-- The columns of the shared region. -/
def Config.columns (cfg : Config C S) : List C :=
  cfg.window :: cfg.u :: cfg.add.xP :: cfg.add.yP :: cfg.addIncomplete.xQR :: cfg.addIncomplete.yQR ::
    cfg.fixedZ :: List.ofFn cfg.lagrangeCoeffs

theorem exists_fits {cfg : Config C S} (hc : cfg.columns.Nodup) (base : FixedPoint b) (N : ℕ)
    (d : ℕ → ℕ) (g : ℤ → ZMod p) : ∃ f, Fits cfg base N 0 d f ∧ f cfg.window = g := by
  obtain ⟨f, hf⟩ := exists_fun (V := ℤ → ZMod p) ((cfg.window, g) ::
    (cfg.u, fun r => (base.u.getD r.toNat []).getD (d r.toNat) 0) ::
    (cfg.add.xP, fun r => (enc (entry base.generator N r.toNat (d r.toNat))).1) ::
    (cfg.add.yP, fun r => (enc (entry base.generator N r.toNat (d r.toNat))).2) ::
    (cfg.addIncomplete.xQR, fun r => (enc (psum d r.toNat • base.generator)).1) ::
    (cfg.addIncomplete.yQR, fun r => (enc (psum d r.toNat • base.generator)).2) ::
    (cfg.fixedZ, fun r => ((base.z.getD r.toNat 0 : ℕ) : ZMod p)) ::
    List.ofFn fun k : Fin 8 => (cfg.lagrangeCoeffs k, fun r : ℤ =>
      (base.lagrangeCoeffs.getD r.toNat []).getD k.val 0)) (by
    simp only [List.map_cons, List.map_ofFn]
    exact hc)
  have h1 := hf _ (.tail _ (.head _))
  have h2 := hf _ (.tail _ (.tail _ (.head _)))
  have h3 := hf _ (.tail _ (.tail _ (.tail _ (.head _))))
  have h4 := hf _ (.tail _ (.tail _ (.tail _ (.tail _ (.head _)))))
  have h5 := hf _ (.tail _ (.tail _ (.tail _ (.tail _ (.tail _ (.head _))))))
  have h6 := hf _ (.tail _ (.tail _ (.tail _ (.tail _ (.tail _ (.tail _ (.head _)))))))
  have h7 : ∀ k : Fin 8, f (cfg.lagrangeCoeffs k) = fun r : ℤ =>
      (base.lagrangeCoeffs.getD r.toNat []).getD k.val 0 := fun k =>
    hf (cfg.lagrangeCoeffs k, _) (.tail _ (.tail _ (.tail _ (.tail _ (.tail _ (.tail _ (.tail _
      (List.mem_ofFn.2 ⟨k, rfl⟩))))))))
  dsimp only at h1 h2 h3 h4 h5 h6
  refine ⟨f, ⟨?_, ?_, ?_, ?_, ?_, ?_, ?_⟩, hf _ (.head _)⟩
  · intro w _; rw [h2]; simp only [Int.toNat_natCast, zero_add]
  · intro w _; rw [h3]; simp only [Int.toNat_natCast, zero_add]
  · intro w _; rw [h1]; simp only [Int.toNat_natCast, zero_add]
  · intro w _; rw [h4]; simp only [Int.toNat_natCast, zero_add]
  · intro w _; rw [h5]; simp only [Int.toNat_natCast, zero_add]
  · intro w _ k; rw [h7]; simp only [Int.toNat_natCast, add_zero]
  · intro w _; rw [h6]; simp only [Int.toNat_natCast, add_zero]

/-! ## The programs -/

theorem toUsize_natCast {k : ℕ} (hk : k < 8) (hq : 8 ≤ q) : toUsize (k : ZMod q) = k := by
  unfold toUsize toLeBits
  rw [chunkValue_eq]
  have := slice_testBit (k : ZMod q).val 256 0 3 (by norm_num)
  rw [List.drop_zero] at this
  rw [this, ZMod.val_natCast, Nat.mod_eq_of_lt (by omega : k < q)]
  omega

/-- The point of a window and its square root. -/
def windowOps (cfg : Config C S) (base : FixedPoint b) (N reg offset w k : ℕ) :
    List (Op C S (ZMod p)) :=
  [.advice ⟨reg, cfg.add.xP, ((offset + w : ℕ) : ℤ)⟩ (enc (entry base.generator N w k)).1,
   .advice ⟨reg, cfg.add.yP, ((offset + w : ℕ) : ℤ)⟩ (enc (entry base.generator N w k)).2,
   .advice ⟨reg, cfg.u, ((offset + w : ℕ) : ℤ)⟩ ((base.u.getD w []).getD k 0)]

theorem processWindow_run (hg : Good b) {base : FixedPoint b} {N : ℕ} (hv : base.Valid N)
    (cfg : Config C S) (reg offset : ℕ) {w k : ℕ} (hw : w < N) (hk : k < 8) {s : ZMod q}
    (hs : smul s base.generator = entry base.generator N w k) (n : ℕ) :
    processWindow cfg N reg offset w k s base n
      = some (rowPoint cfg reg (offset + w) (enc (entry base.generator N w k)), n,
        windowOps cfg base N reg offset w k) := by
  obtain ⟨cs, z, us, -, -, e3, -, -, hrow⟩ := hv.row w hw
  obtain ⟨x, y, u, hne, henc, -, hu, -, -⟩ := hrow k hk
  obtain ⟨hc, -⟩ := enc_ne_zero hg hne henc
  have h3 : base.u.getD w [] = us := by simp [List.getD, e3]
  have h4 : us.getD k 0 = u := by simp [List.getD, hu]
  unfold processWindow windowOps
  rw [h3, h4, henc]
  refine bind_of (ops₁ := []) (assert_of hv.lenU n) ?_
  refine bind_of (ops₁ := []) (unwrap_of (a := (x, y)) ?_ n) ?_
  · rw [hs]; unfold coordinates; rw [if_neg hne, henc]
  refine bind_of (ops₁ := []) (assert_of (x_ne_zero hg hc) n) ?_
  refine bind_of (n' := n) (ops₁ := [_]) rfl ?_
  refine bind_of (ops₁ := []) (assert_of (y_ne_zero hg hc) n) ?_
  refine bind_of (n' := n) (ops₁ := [_]) rfl ?_
  refine bind_of (ops₁ := []) (unwrap_of e3 n) ?_
  refine bind_of (ops₁ := []) (unwrap_of hu n) ?_
  rfl

/-- What the incomplete addition records. -/
theorem addIncomplete_shape {F : Type} [Field F] [DecidableEq F] {cfg : AddIncomplete.Config C S}
    {x y r : EccPoint C F} {reg offset n n' : ℕ} {os : List (Op C S F)}
    (h : AddIncomplete.assignRegion cfg x y reg offset n = some (r, n', os)) :
    n' = n ∧ r = AddIncomplete.out cfg x y reg offset ∧ os = AddIncomplete.ops cfg x y reg offset := by
  by_cases he : AddIncomplete.Exceptional x y
  · rw [AddIncomplete.run_none reg offset n he] at h; cases h
  · rw [AddIncomplete.run reg offset n he] at h
    cases h
    exact ⟨rfl, rfl, rfl⟩

theorem windowOps_written {cfg : Config C S} {base : FixedPoint b} {N reg offset : ℕ} {d : ℕ → ℕ}
    {f : C → ℤ → ZMod p} (hf : Fits cfg base N offset d f) {w : ℕ} (hw : w < N) :
    Written reg f (windowOps cfg base N reg offset w (d w) : List (Op C S (ZMod p))) := by
  intro c v hv
  simp only [Assigned, windowOps, List.mem_cons, List.not_mem_nil, or_false, Op.advice.injEq,
    reduceCtorEq] at hv
  rcases hv with ⟨rfl, rfl⟩ | ⟨rfl, rfl⟩ | ⟨rfl, rfl⟩
  · exact ⟨rfl, (hf.xP w hw).symm⟩
  · exact ⟨rfl, (hf.yP w hw).symm⟩
  · exact ⟨rfl, (hf.u w hw).symm⟩

/-- The additions of the loop can be made, and meet their constraints. -/
theorem addLoop_complete (hg : Good b) {base : FixedPoint b} {N : ℕ} (hv : base.Valid N)
    (hB : Large base.generator N) (hq : q • base.generator = 0) (hq8 : 8 ≤ q) {cfg : Config C S}
    (hc : cfg.Configured) {reg offset : ℕ} {d : ℕ → ℕ} (hd : ∀ i < N, d i < 8) {w : ℕ} (hw : 0 < w)
    {acc : EccPoint C (ZMod p)} {m : ℕ} (hN : w + m < N)
    (hacc : Val acc (psum d w • base.generator)) (n : ℕ) :
    ∃ r ops, addLoop cfg N reg offset base w acc
        ((List.range m).map fun i => (d (w + i) : ZMod q)) n = some (r, n, ops) ∧
      Val r (psum d (w + m) • base.generator) ∧
      (∀ s r row, .enable s r row ∈ ops → s = cfg.addIncomplete.qAddIncomplete) ∧
      (∀ f, Fits cfg base N offset d f → Written reg f ops) ∧
      (∀ G, Honest G ops → Holds G acc (psum d w • base.generator) →
        Sat (AddIncomplete.gates cfg.addIncomplete) G ops ∧ Holds G r (psum d (w + m) • base.generator) ∧
        ∀ j, w ≤ j → j < w + m → Honest G (windowOps cfg base N reg offset j (d j) : List (Op C S (ZMod p)))) := by
  induction m generalizing w acc n with
  | zero =>
    exact ⟨acc, [], rfl, hacc, by simp, fun _ _ => Written.nil, fun G _ h => ⟨Sat.nil _ _, h, by omega⟩⟩
  | succ m ih =>
    have hent : entry base.generator N w (d w) = ((d w + 2) * 8 ^ w) • base.generator := by
      rw [entry, if_pos (by omega)]
    have hle : psum d w < 2 * 8 ^ w := by
      have := psum_le (d := d) (n := w) fun i hi => hd i (by omega)
      have : 0 < 8 ^ w := by positivity
      omega
    have hle' : psum d (w + 1) < 2 * 8 ^ (N - 1) := by
      have h1 := psum_le (d := d) (n := w + 1) fun i hi => hd i (by omega)
      have h2 : 8 ^ (w + 1) ≤ 8 ^ (N - 1) := Nat.pow_le_pow_right (by norm_num) (by omega)
      have : 0 < 8 ^ (w + 1) := by positivity
      omega
    have hge : 2 * 8 ^ w ≤ (d w + 2) * 8 ^ w := Nat.mul_le_mul_right _ (by omega)
    have hpos := psum_pos d hw
    rw [psum] at hle'
    have e : (d w + 2) * 8 ^ w = ((d w + 2) * 8 ^ w - psum d w) + psum d w := by omega
    have hP : Val (rowPoint cfg reg (offset + w) (enc (entry base.generator N w (d w))))
        (((d w + 2) * 8 ^ w) • base.generator) := by rw [← hent]; rfl
    obtain ⟨r1, os, hr1, hval1, hcomp⟩ := AddIncomplete.complete hg (cfg := cfg.addIncomplete) reg
      (offset + w) n hP hacc (hB _ (by omega) (by omega)) (hB _ hpos (by omega))
      (fun he => hB ((d w + 2) * 8 ^ w - psum d w) (by omega) (by omega) (by
        rw [e, add_smul, add_eq_right] at he; exact he))
      (fun he => hB ((d w + 2) * 8 ^ w + psum d w) (by omega) (by omega) (by
        rw [add_smul, he, neg_add_cancel]))
    obtain ⟨-, hout, hos⟩ := addIncomplete_shape hr1
    rw [← add_smul, add_comm] at hval1
    obtain ⟨r, ops, hrun, hval, hen, hwr, hsat⟩ := ih (w := w + 1) (by omega) (by omega) hval1 n
    refine ⟨r, windowOps cfg base N reg offset w (d w) ++ (os ++ ops), ?_, ?_, ?_, ?_, ?_⟩
    · rw [List.range_succ_eq_map, List.map_cons, List.map_map]
      unfold addLoop processLowerBits
      rw [add_zero, toUsize_natCast (hd w (by omega)) hq8]
      refine bind_of (processWindow_run hg hv cfg reg offset (by omega) (hd w (by omega))
        (smul_lower hq (by omega) (d w)) n) ?_
      refine bind_of hr1 ?_
      convert hrun using 3
      funext i
      simp only [Function.comp_apply, Nat.succ_eq_add_one]
      rw [show w + (i + 1) = w + 1 + i by omega]
    · rw [show w + (m + 1) = w + 1 + m by omega]; exact hval
    · intro s r' row hm
      rcases List.mem_append.1 hm with hm | hm
      · simp [windowOps] at hm
      rcases List.mem_append.1 hm with hm | hm
      · rw [hos] at hm
        simp only [AddIncomplete.ops, List.mem_cons, Op.enable.injEq, reduceCtorEq, List.not_mem_nil,
          or_false] at hm
        exact hm.1
      · exact hen s r' row hm
    · intro f hf
      refine (windowOps_written hf (by omega)).append (Written.append ?_ (hwr f hf))
      rw [hos]
      intro c v hcv
      simp only [Assigned, AddIncomplete.ops, List.mem_cons, List.not_mem_nil, or_false,
        Op.advice.injEq, reduceCtorEq, false_or] at hcv
      have hv1 : enc (psum d (w + 1) • base.generator) = _ := hval1
      have ha : enc (psum d w • base.generator) = _ := hacc
      rw [hout] at hv1
      rcases hcv with ⟨rfl, rfl⟩ | ⟨rfl, rfl⟩ | ⟨rfl, rfl⟩ | ⟨rfl, rfl⟩ | ⟨rfl, rfl⟩ | ⟨rfl, rfl⟩
      · exact ⟨rfl, by rw [hc.xP]; exact (hf.xP w (by omega)).symm⟩
      · exact ⟨rfl, by rw [hc.yP]; exact (hf.yP w (by omega)).symm⟩
      · exact ⟨rfl, by dsimp only; rw [hf.xQR w (by omega), ha]⟩
      · exact ⟨rfl, by dsimp only; rw [hf.yQR w (by omega), ha]⟩
      · refine ⟨rfl, ?_⟩
        have := hf.xQR (w + 1) (by omega)
        dsimp only
        rw [add_assoc, this, hv1]; rfl
      · refine ⟨rfl, ?_⟩
        have := hf.yQR (w + 1) (by omega)
        dsimp only
        rw [add_assoc, this, hv1]; rfl
    · intro G hG hGacc
      have hGP : Holds G (rowPoint cfg reg (offset + w) (enc (entry base.generator N w (d w))))
          (((d w + 2) * 8 ^ w) • base.generator) := by
        rw [← hent, Holds]
        refine Prod.ext ?_ ?_
        · exact (hG.1 _ _ (by simp [windowOps, rowPoint])).symm
        · exact (hG.1 _ _ (by simp [windowOps, rowPoint])).symm
      obtain ⟨s1, s2⟩ := hcomp G hG.right.left hGP hGacc
      rw [← add_smul, add_comm] at s2
      obtain ⟨s3, s4, s5⟩ := hsat G hG.right.right s2
      refine ⟨Sat.append ⟨?_, ?_, ?_, ?_⟩ (s1.append s3), ?_, ?_⟩
      · intro g _ r' row hm; simp [windowOps] at hm
      · intro _ _ hm; simp [windowOps] at hm
      · intro _ _ hm; simp [windowOps] at hm
      · intro _ _ hm; simp [windowOps] at hm
      · rw [show w + (m + 1) = w + 1 + m by omega]; exact s4
      · intro j h1 h2
        rcases Nat.eq_or_lt_of_le h1 with rfl | h
        · exact hG.left
        · exact s5 j (by omega) (by omega)

theorem rowOps_written {cfg : Config C S} {base : FixedPoint b} {N reg offset : ℕ} {d : ℕ → ℕ}
    {f : C → ℤ → ZMod p} (hf : Fits cfg base N offset d f) {w : ℕ} (hw : w < N) :
    Written reg f (rowOps cfg reg (w + offset) (base.lagrangeCoeffs.getD w []) (base.z.getD w 0)
      (List.finRange 8) : List (Op C S (ZMod p))) := by
  intro c v hv
  simp only [Assigned, rowOps, List.mem_append, List.mem_map, reduceCtorEq, and_false, exists_false,
    List.mem_singleton, false_or, Op.fixed.injEq] at hv
  rcases hv with ⟨k, -, rfl, rfl⟩ | ⟨rfl, rfl⟩
  · exact ⟨rfl, (hf.coeffs w hw k).symm⟩
  · exact ⟨rfl, (hf.z w hw).symm⟩

theorem fixedOps_written {cfg : Config C S} {base : FixedPoint b} {N reg offset : ℕ} {d : ℕ → ℕ}
    {f : C → ℤ → ZMod p} (hf : Fits cfg base N offset d f) {toggle : S} {w n : ℕ} (hw : w + n ≤ N) :
    Written reg f (fixedOps cfg base toggle reg offset w n : List (Op C S (ZMod p))) := by
  induction n generalizing w with
  | zero => exact Written.nil
  | succ n ih =>
    unfold fixedOps
    refine Written.append (o := [_]) ?_ ((rowOps_written hf (by omega)).append (ih (by omega)))
    intro c v hv
    simp [Assigned] at hv

theorem fixedOps_only {cfg : Config C S} {base : FixedPoint b} {toggle : S} {reg offset w n : ℕ} :
    ∀ op ∈ (fixedOps cfg base toggle reg offset w n : List (Op C S (ZMod p))),
      (∃ j, w ≤ j ∧ j < w + n ∧ op = .enable toggle reg ((j + offset : ℕ) : ℤ)) ∨
        ∃ c v, op = .fixed c v := by
  induction n generalizing w with
  | zero => simp [fixedOps]
  | succ n ih =>
    unfold fixedOps
    intro op hop
    rcases List.mem_cons.1 hop with rfl | hop
    · exact .inl ⟨w, le_refl _, by omega, rfl⟩
    rcases List.mem_append.1 hop with hop | hop
    · simp only [rowOps, List.mem_append, List.mem_map, List.mem_singleton] at hop
      rcases hop with ⟨k, -, rfl⟩ | rfl
      · exact .inr ⟨_, _, rfl⟩
      · exact .inr ⟨_, _, rfl⟩
    · rcases ih op hop with ⟨j, h1, h2, rfl⟩ | h
      · exact .inl ⟨j, by omega, by omega, rfl⟩
      · exact .inr h

/-- The gate holds in a row with the honest values. -/
theorem coords_complete (hg : Good b) {base : FixedPoint b} {N : ℕ} (hv : base.Valid N)
    {cfg : Config C S} {toggle : S} {reg offset : ℕ} {G : Grid C (ZMod p)}
    (hf : Honest G (fixedOps cfg base toggle reg offset 0 N)) {w k : ℕ} (hw : w < N) (hk : k < 8)
    (hG : Honest G (windowOps cfg base N reg offset w k : List (Op C S (ZMod p)))) :
    ∀ f ∈ coordsCheck b cfg (G.query reg ((w + offset : ℕ) : ℤ)) (k : ZMod p), f = 0 := by
  rw [coords_iff]
  obtain ⟨f1, f2⟩ := fixed_values hv (fun c v hm => hf.2 c v hm) hw
  obtain ⟨cs, z, us, e1, e2, e3, -, -, hrow⟩ := hv.row w hw
  obtain ⟨x, y, u, hne, henc, hx, hu, hz, -⟩ := hrow k hk
  obtain ⟨hc, -⟩ := enc_ne_zero hg hne henc
  have h3 : base.u.getD w [] = us := by simp [List.getD, e3]
  have h4 : us.getD k 0 = u := by simp [List.getD, hu]
  have a1 : G.query reg ((w + offset : ℕ) : ℤ) cfg.add.xP 0 = x := by
    have := hG.1 ⟨reg, cfg.add.xP, ((offset + w : ℕ) : ℤ)⟩ x (by simp [windowOps, henc])
    simp only [Grid.query, add_zero]; rw [add_comm]; exact this
  have a2 : G.query reg ((w + offset : ℕ) : ℤ) cfg.add.yP 0 = y := by
    have := hG.1 ⟨reg, cfg.add.yP, ((offset + w : ℕ) : ℤ)⟩ y (by simp [windowOps, henc])
    simp only [Grid.query, add_zero]; rw [add_comm]; exact this
  have a3 : G.query reg ((w + offset : ℕ) : ℤ) cfg.u 0 = u := by
    have := hG.1 ⟨reg, cfg.u, ((offset + w : ℕ) : ℤ)⟩ u (by
      unfold windowOps; rw [h3, h4]; simp)
    simp only [Grid.query, add_zero]; rw [add_comm]; exact this
  rw [f1 cs e1, f2 z e2, a1, a2, a3]
  exact ⟨hx, hz, hc⟩

/-- **The shared region is complete.** -/
theorem inner_complete (hg : Good b) {base : FixedPoint b} {N : ℕ} (hN : 2 ≤ N) (hv : base.Valid N)
    (hB : Large base.generator N) (hq : q • base.generator = 0) (hq8 : 8 ≤ q) {cfg : Config C S}
    (hc : cfg.Configured) {d : ℕ → ℕ} (hd : ∀ i < N, d i < 8) {toggle : S}
    (ht : toggle ≠ cfg.addIncomplete.qAddIncomplete) (reg offset n : ℕ) :
    ∃ acc mulB ops, assignRegionInner cfg N reg offset
        ((List.range N).map fun i => (d i : ZMod q)) base toggle n = some ((acc, mulB), n, ops) ∧
      Val acc (psum d (N - 1) • base.generator) ∧
      Val mulB (entry base.generator N (N - 1) (d (N - 1))) ∧
      (∀ s r row, .enable s r row ∈ ops →
        (s = toggle ∧ r = reg ∧ ∃ w < N, row = ((w + offset : ℕ) : ℤ)) ∨
          s = cfg.addIncomplete.qAddIncomplete) ∧
      (∀ f, Fits cfg base N offset d f → Written reg f ops) ∧
      (∀ G, Honest G ops → Sat (AddIncomplete.gates cfg.addIncomplete) G ops ∧
        Holds G acc (psum d (N - 1) • base.generator) ∧
        Holds G mulB (entry base.generator N (N - 1) (d (N - 1))) ∧
        ∀ w < N, ∀ f ∈ coordsCheck b cfg (G.query reg ((w + offset : ℕ) : ℤ)) (d w : ZMod p), f = 0) := by
  have hacc0 : Val (rowPoint cfg reg (offset + 0) (enc (entry base.generator N 0 (d 0))))
      (psum d 1 • base.generator) := by
    have : entry base.generator N 0 (d 0) = psum d 1 • base.generator := by
      rw [entry, if_pos (by omega)]; simp [psum]
    rw [← this]; rfl
  obtain ⟨acc, ops, hrun, hval, hen, hwr, hsat⟩ := addLoop_complete hg hv hB hq hq8 hc (reg := reg)
    (offset := offset) hd (w := 1) (m := N - 2) (by omega) (by omega) hacc0 n
  rw [show 1 + (N - 2) = N - 1 by omega] at hval hsat
  refine ⟨acc, rowPoint cfg reg (offset + (N - 1)) (enc (entry base.generator N (N - 1) (d (N - 1)))),
    fixedOps cfg base toggle reg offset 0 N ++ (windowOps cfg base N reg offset 0 (d 0) ++
      (ops ++ windowOps cfg base N reg offset (N - 1) (d (N - 1)))), ?_, hval, rfl, ?_, ?_, ?_⟩
  · unfold assignRegionInner
    refine bind_of (ops₁ := []) (assert_of ⟨hv.lenL, hv.lenZ⟩ n) ?_
    refine bind_of (assignFixedConstants_run cfg hv toggle reg offset 0 N n (by omega)) ?_
    refine bind_of (ops₁ := []) (unwrap_of (a := (d 0 : ZMod q)) (by
      rw [List.getElem?_map, List.getElem?_range (by omega)]; rfl) n) ?_
    refine bind_of (a := rowPoint cfg reg (offset + 0) (enc (entry base.generator N 0 (d 0)))) (n' := n)
      (ops₁ := windowOps cfg base N reg offset 0 (d 0)) ?_ ?_
    · unfold processLowerBits
      rw [toUsize_natCast (hd 0 (by omega)) hq8]
      exact processWindow_run hg hv cfg reg offset (by omega) (hd 0 (by omega))
        (smul_lower hq (by omega) (d 0)) n
    refine bind_of (ops₁ := []) (assert_of (by simp) n) ?_
    have hl : (((List.range N).map fun i => (d i : ZMod q)).take (N - 1)).drop 1
        = (List.range (N - 2)).map fun i => (d (1 + i) : ZMod q) := by
      refine List.ext_getElem (by simp; omega) fun i h1 h2 => ?_
      simp [add_comm]
    rw [hl]
    refine bind_of hrun ?_
    refine bind_of (ops₁ := []) (unwrap_of (a := (d (N - 1) : ZMod q)) (by
      rw [List.getElem?_map, List.getElem?_range (by omega)]; rfl) n) ?_
    refine bind_of (a := rowPoint cfg reg (offset + (N - 1))
      (enc (entry base.generator N (N - 1) (d (N - 1))))) (n' := n)
      (ops₁ := windowOps cfg base N reg offset (N - 1) (d (N - 1))) (ops₂ := []) ?_ rfl
    unfold processMsb
    rw [toUsize_natCast (hd (N - 1) (by omega)) hq8]
    exact processWindow_run hg hv cfg reg offset (by omega) (hd (N - 1) (by omega))
      (smul_msb hq (d (N - 1))) n
  · intro s r row hm
    rcases List.mem_append.1 hm with hm | hm
    · rcases fixedOps_only _ hm with ⟨j, -, h2, h⟩ | ⟨c, v, h⟩
      · cases h; exact .inl ⟨rfl, rfl, j, by omega, rfl⟩
      · cases h
    rcases List.mem_append.1 hm with hm | hm
    · simp [windowOps] at hm
    rcases List.mem_append.1 hm with hm | hm
    · exact .inr (hen s r row hm)
    · simp [windowOps] at hm
  · intro f hf
    exact (fixedOps_written hf (by omega)).append ((windowOps_written hf (by omega)).append
      ((hwr f hf).append (windowOps_written hf (by omega))))
  · intro G hG
    have hG1 := hG.left
    have hG2 := hG.right.left
    have hG4 := hG.right.right.right
    have hGacc : Holds G (rowPoint cfg reg (offset + 0) (enc (entry base.generator N 0 (d 0))))
        (psum d 1 • base.generator) := by
      rw [Holds, hacc0]
      refine Prod.ext ?_ ?_
      · exact (hG2.1 _ _ (by simp [windowOps, rowPoint])).symm
      · exact (hG2.1 _ _ (by simp [windowOps, rowPoint])).symm
    obtain ⟨s1, s2, s3⟩ := hsat G hG.right.right.left hGacc
    refine ⟨⟨?_, ?_, ?_, fun c v hm => hG.2 c v hm⟩, s2, ?_, ?_⟩
    · intro g hgm r row hm
      rcases List.mem_append.1 hm with hm | hm
      · rcases fixedOps_only _ hm with ⟨j, -, h2, h⟩ | ⟨c, v, h⟩
        · simp only [AddIncomplete.gates, List.mem_singleton] at hgm
          subst hgm
          simp only [Op.enable.injEq] at h
          exact absurd h.1.symm ht
        · cases h
      rcases List.mem_append.1 hm with hm | hm
      · simp [windowOps] at hm
      rcases List.mem_append.1 hm with hm | hm
      · exact s1.gates g hgm r row hm
      · simp [windowOps] at hm
    · intro x y hm
      rcases List.mem_append.1 hm with hm | hm
      · rcases fixedOps_only _ hm with ⟨j, -, h2, h⟩ | ⟨c, v, h⟩ <;> cases h
      rcases List.mem_append.1 hm with hm | hm
      · simp [windowOps] at hm
      rcases List.mem_append.1 hm with hm | hm
      · exact s1.equal x y hm
      · simp [windowOps] at hm
    · intro x y hm
      rcases List.mem_append.1 hm with hm | hm
      · rcases fixedOps_only _ hm with ⟨j, -, h2, h⟩ | ⟨c, v, h⟩ <;> cases h
      rcases List.mem_append.1 hm with hm | hm
      · simp [windowOps] at hm
      rcases List.mem_append.1 hm with hm | hm
      · exact s1.const x y hm
      · simp [windowOps] at hm
    · rw [Holds]
      refine Prod.ext ?_ ?_
      · exact (hG4.1 _ _ (by simp [windowOps, rowPoint])).symm
      · exact (hG4.1 _ _ (by simp [windowOps, rowPoint])).symm
    · intro w hw
      refine coords_complete hg hv hG1 hw (hd w hw) ?_
      rcases Nat.eq_zero_or_pos w with rfl | hw0
      · exact hG2
      rcases Nat.lt_or_ge w (N - 1) with h | h
      · exact s3 w (by omega) (by omega)
      · rw [show w = N - 1 by omega]; exact hG4

end Verif.MulFixed
