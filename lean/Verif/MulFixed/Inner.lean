import Verif.MulFixed.Spec
import Verif.Region.Local

/-!
# The region shared by the three kinds of fixed-base multiplication: soundness
-/

namespace Verif.MulFixed

open Verif.Region Verif.Ecc Verif.Utilities Verif.RunningSum

variable {C S : Type} {p q : ℕ} [Fact p.Prime] [Fact q.Prime] {b : ZMod p}

/-! ## Integers -/

/-- The number with digits `d`. -/
def value (d : ℕ → ℕ) : ℕ → ℕ
  | 0 => 0
  | n + 1 => value d n + d n * 8 ^ n

/-- The multiple accumulated from the first windows. -/
def psum (d : ℕ → ℕ) : ℕ → ℕ
  | 0 => 0
  | n + 1 => psum d n + (d n + 2) * 8 ^ n

theorem psum_eq (d : ℕ → ℕ) (n : ℕ) : psum d n = value d n + twos n := by
  induction n with
  | zero => rfl
  | succ n ih => simp only [psum, value, twos, ih]; ring

theorem value_lt {d : ℕ → ℕ} {n : ℕ} (h : ∀ i < n, d i < 8) : value d n < 8 ^ n := by
  induction n with
  | zero => simp [value]
  | succ n ih =>
    have h1 := ih fun i hi => h i (by omega)
    have h2 := h n (by omega)
    rw [value, pow_succ]
    have : d n * 8 ^ n ≤ 7 * 8 ^ n := Nat.mul_le_mul_right _ (by omega)
    omega

theorem psum_le {d : ℕ → ℕ} {n : ℕ} (h : ∀ i < n, d i < 8) : 7 * psum d n + 9 ≤ 9 * 8 ^ n := by
  induction n with
  | zero => simp [psum]
  | succ n ih =>
    have h1 := ih fun i hi => h i (by omega)
    have h2 := h n (by omega)
    rw [psum, pow_succ]
    have : (d n + 2) * 8 ^ n ≤ 9 * 8 ^ n := Nat.mul_le_mul_right _ (by omega)
    omega

theorem psum_pos (d : ℕ → ℕ) {n : ℕ} (h : 0 < n) : 0 < psum d n := by
  obtain ⟨n, rfl⟩ := Nat.exists_eq_succ_of_ne_zero (by omega : n ≠ 0)
  rw [psum]
  have : 0 < (d n + 2) * 8 ^ n := by positivity
  omega

/-- The accumulator and the point of the last window add up to the product. -/
theorem total (B : Pt b) (d : ℕ → ℕ) (n : ℕ) :
    entry B (n + 1) n (d n) + psum d n • B = value d (n + 1) • B := by
  rw [entry, if_neg (by omega), psum_eq, value, add_smul, add_smul]
  abel

/-! ## The gate -/

theorem interp_eq (c : Fin 8 → ZMod p) (x : ZMod p) :
    (List.finRange 8).foldl (fun acc (i : Fin 8) =>
      acc + (List.range i.val).foldl (fun a _ => a * x) 1 * c i) 0
      = horner (List.ofFn c) x := by
  have h : List.finRange 8 = [0, 1, 2, 3, 4, 5, 6, 7] := by decide
  rw [h]
  simp [List.range_succ, horner, List.ofFn_succ]
  ring

theorem coords_iff (cfg : Config C S) (query : C → ℤ → ZMod p) (x : ZMod p) :
    (∀ f ∈ coordsCheck b cfg query x, f = 0) ↔
      horner (List.ofFn fun i => query (cfg.lagrangeCoeffs i) 0) x = query cfg.add.xP 0 ∧
      query cfg.fixedZ 0 + query cfg.add.yP 0 = query cfg.u 0 ^ 2 ∧
      query cfg.add.yP 0 ^ 2 = query cfg.add.xP 0 ^ 3 + b := by
  simp only [coordsCheck, List.mem_cons, List.not_mem_nil, or_false, forall_eq_or_imp, forall_eq]
  rw [interp_eq (fun i => query (cfg.lagrangeCoeffs i) 0)]
  refine and_congr ?_ (and_congr ?_ ?_)
  · exact sub_eq_zero
  · exact ⟨fun h => by linear_combination -h, fun h => by linear_combination -h⟩
  · exact ⟨fun h => by linear_combination h, fun h => by linear_combination h⟩

/-- The coordinates of a row are those of the point of the table. -/
theorem window_sound (hg : Good b) {base : FixedPoint b} {N : ℕ} (hv : base.Valid N)
    {cfg : Config C S} {query : C → ℤ → ZMod p} {w k : ℕ} (hw : w < N) (hk : k < 8)
    (hcs : ∀ cs, base.lagrangeCoeffs[w]? = some cs →
      (List.ofFn fun i => query (cfg.lagrangeCoeffs i) 0) = cs)
    (hz : ∀ z, base.z[w]? = some z → query cfg.fixedZ 0 = (z : ZMod p))
    (h : ∀ f ∈ coordsCheck b cfg query (k : ZMod p), f = 0) :
    enc (entry base.generator N w k) = (query cfg.add.xP 0, query cfg.add.yP 0) := by
  rw [coords_iff] at h
  obtain ⟨h1, h2, h3⟩ := h
  obtain ⟨cs, z, us, e1, e2, e3, -, -, hrow⟩ := hv.row w hw
  obtain ⟨x, y, u, hne, henc, hx, -, hu, hn⟩ := hrow k hk
  rw [hcs cs e1, hx] at h1
  rw [hz z e2] at h2
  obtain ⟨hc, -⟩ := enc_ne_zero hg hne henc
  rw [henc, h1]
  rw [← h1] at h3
  rcases y_eq_or_neg h3 hc with hy | hy
  · rw [hy]
  · refine absurd ⟨query cfg.u 0, ?_⟩ hn
    rw [← sq, ← h2, hy]; ring

/-! ## The programs -/

/-- The constants of a row. -/
def rowOps (cfg : Config C S) (reg row : ℕ) (cs : List (ZMod p)) (z : ℕ) (ks : List (Fin 8)) :
    List (Op C S (ZMod p)) :=
  (ks.map fun k => .fixed ⟨reg, cfg.lagrangeCoeffs k, row⟩ (cs.getD k.val 0)) ++
    [.fixed ⟨reg, cfg.fixedZ, row⟩ (z : ZMod p)]

theorem assignRow_run (cfg : Config C S) (reg row : ℕ) {cs : List (ZMod p)} (hcs : cs.length = 8)
    (z : ℕ) (ks : List (Fin 8)) (n : ℕ) : assignRow cfg reg row cs z ks n
      = some ((), n, rowOps cfg reg row cs z ks) := by
  induction ks with
  | nil => rfl
  | cons k ks ih =>
    unfold assignRow
    have hk : cs[k.val]? = some (cs.getD k.val 0) := by
      rw [List.getElem?_eq_getElem (by omega)]; simp [show k.val < cs.length by omega]
    refine bind_of (ops₁ := []) (unwrap_of hk n) ?_
    exact bind_of (n' := n) (ops₁ := [_]) rfl ih

/-- The constants of all rows. -/
def fixedOps (cfg : Config C S) (base : FixedPoint b) (toggle : S) (reg offset : ℕ) :
    (w n : ℕ) → List (Op C S (ZMod p))
  | _, 0 => []
  | w, n + 1 => .enable toggle reg ((w + offset : ℕ) : ℤ) ::
      (rowOps cfg reg (w + offset) (base.lagrangeCoeffs.getD w []) (base.z.getD w 0)
        (List.finRange 8) ++ fixedOps cfg base toggle reg offset (w + 1) n)

theorem assignFixedConstants_run (cfg : Config C S) {base : FixedPoint b} {N : ℕ}
    (hv : base.Valid N) (toggle : S) (reg offset : ℕ) (w n m : ℕ) (h : w + n ≤ N) :
    assignFixedConstants cfg base toggle reg offset w n m
      = some ((), m, fixedOps cfg base toggle reg offset w n) := by
  induction n generalizing w with
  | zero => rfl
  | succ n ih =>
    obtain ⟨cs, z, us, e1, e2, -, h8, -⟩ := hv.row w (by omega)
    unfold assignFixedConstants fixedOps
    refine bind_of (n' := m) (ops₁ := [_]) rfl ?_
    refine bind_of (ops₁ := []) (unwrap_of e1 m) ?_
    refine bind_of (ops₁ := []) (unwrap_of e2 m) ?_
    have h1 : base.lagrangeCoeffs.getD w [] = cs := by simp [List.getD, e1]
    have h2 : base.z.getD w 0 = z := by simp [List.getD, e2]
    rw [h1, h2]
    exact bind_of (assignRow_run cfg reg (w + offset) h8 z _ m) (ih (w + 1) (by omega))

theorem fixedOps_enable (cfg : Config C S) (base : FixedPoint b) (toggle : S) (reg offset : ℕ)
    {w n j : ℕ} (h1 : w ≤ j) (h2 : j < w + n) : .enable toggle reg ((j + offset : ℕ) : ℤ)
      ∈ fixedOps cfg base toggle reg offset w n := by
  induction n generalizing w with
  | zero => omega
  | succ n ih =>
    unfold fixedOps
    rcases Nat.eq_or_lt_of_le h1 with rfl | h
    · exact List.mem_cons_self ..
    · exact List.mem_cons_of_mem _ (List.mem_append_right _ (ih (by omega) (by omega)))

theorem fixedOps_row (cfg : Config C S) (base : FixedPoint b) (toggle : S) (reg offset : ℕ)
    {w n j : ℕ} (h1 : w ≤ j) (h2 : j < w + n) : ∀ op ∈ (rowOps cfg reg (j + offset)
      (base.lagrangeCoeffs.getD j []) (base.z.getD j 0) (List.finRange 8) : List (Op C S (ZMod p))),
      op ∈ fixedOps cfg base toggle reg offset w n := by
  induction n generalizing w with
  | zero => omega
  | succ n ih =>
    unfold fixedOps
    intro op hop
    rcases Nat.eq_or_lt_of_le h1 with rfl | h
    · exact List.mem_cons_of_mem _ (List.mem_append_left _ hop)
    · exact List.mem_cons_of_mem _ (List.mem_append_right _ (ih (by omega) (by omega) op hop))

/-- Where the fixed columns have the constants. -/
theorem fixed_values {cfg : Config C S} {base : FixedPoint b} {N : ℕ} (hv : base.Valid N) {toggle : S}
    {reg offset : ℕ} {G : Grid C (ZMod p)}
    (hf : ∀ c v, .fixed c v ∈ fixedOps cfg base toggle reg offset 0 N → G.at c = v) {w : ℕ} (hw : w < N) :
    (∀ cs, base.lagrangeCoeffs[w]? = some cs →
      (List.ofFn fun i => G.query reg ((w + offset : ℕ) : ℤ) (cfg.lagrangeCoeffs i) 0) = cs) ∧
    ∀ z, base.z[w]? = some z → G.query reg ((w + offset : ℕ) : ℤ) cfg.fixedZ 0 = (z : ZMod p) := by
  have hrow := fixedOps_row cfg base toggle reg offset (w := 0) (n := N) (Nat.zero_le w) (by omega)
  constructor
  · intro cs hcs
    have h8 : cs.length = 8 := by
      obtain ⟨cs', z, us, e1, -, -, h8, -⟩ := hv.row w hw
      rw [hcs] at e1; cases e1; exact h8
    have h1 : base.lagrangeCoeffs.getD w [] = cs := by simp [List.getD, hcs]
    rw [h1] at hrow
    refine List.ext_getElem (by simp [h8]) fun i hi hi' => ?_
    rw [List.getElem_ofFn]
    have := hf ⟨reg, cfg.lagrangeCoeffs ⟨i, by omega⟩, ((w + offset : ℕ) : ℤ)⟩ _ (hrow _ (by
      unfold rowOps
      exact List.mem_append_left _ (List.mem_map.2 ⟨⟨i, by omega⟩, List.mem_finRange _, rfl⟩)))
    simp only [Grid.query, add_zero]
    refine this.trans ?_
    simp [hi']
  · intro z hz
    have h2 : base.z.getD w 0 = z := by simp [List.getD, hz]
    rw [h2] at hrow
    have := hf ⟨reg, cfg.fixedZ, ((w + offset : ℕ) : ℤ)⟩ (z : ZMod p) (hrow _ (by simp [rowOps]))
    simpa only [Grid.query, add_zero, Grid.at] using this

/-- The cells of the point of a window. -/
def rowPoint (cfg : Config C S) (reg row : ℕ) (v : ZMod p × ZMod p) : EccPoint C (ZMod p) :=
  ⟨⟨⟨reg, cfg.add.xP, row⟩, v.1⟩, ⟨⟨reg, cfg.add.yP, row⟩, v.2⟩⟩

theorem processWindow_shape {cfg : Config C S} {N reg offset w k : ℕ} {s : ZMod q}
    {base : FixedPoint b} {n n' : ℕ} {r : EccPoint C (ZMod p)} {ops : List (Op C S (ZMod p))}
    (h : processWindow cfg N reg offset w k s base n = some (r, n', ops)) :
    n' = n ∧ ∃ v, r = rowPoint cfg reg (offset + w) v := by
  unfold processWindow at h
  obtain ⟨u1, n1, o1, o1', h1, h1', -⟩ := bind_some h
  obtain ⟨-, rfl, rfl⟩ := assert_some h1
  obtain ⟨⟨x, y⟩, n2, o2, o2', h2, h2', -⟩ := bind_some h1'
  obtain ⟨-, rfl, rfl⟩ := unwrap_some h2
  dsimp only at h2'
  obtain ⟨u3, n3, o3, o3', h3, h3', -⟩ := bind_some h2'
  obtain ⟨-, rfl, rfl⟩ := assert_some h3
  obtain ⟨x', n4, o4, o4', h4, h4', -⟩ := bind_some h3'
  cases h4
  obtain ⟨u5, n5, o5, o5', h5, h5', -⟩ := bind_some h4'
  obtain ⟨-, rfl, rfl⟩ := assert_some h5
  obtain ⟨y', n6, o6, o6', h6, h6', -⟩ := bind_some h5'
  cases h6
  obtain ⟨us, n7, o7, o7', h7, h7', -⟩ := bind_some h6'
  obtain ⟨-, rfl, rfl⟩ := unwrap_some h7
  obtain ⟨u8, n8, o8, o8', h8, h8', -⟩ := bind_some h7'
  obtain ⟨-, rfl, rfl⟩ := unwrap_some h8
  obtain ⟨a9, n9, o9, o9', h9, h9', -⟩ := bind_some h8'
  cases h9
  cases h9'
  exact ⟨rfl, (x, y), rfl⟩

/-- The multiples of the base that do not vanish. -/
def Large (B : Pt b) (N : ℕ) : Prop := ∀ m, 0 < m → m < 2 * 8 ^ (N - 1) → m • B ≠ 0

/-- The incomplete additions are never exceptional. -/
theorem addLoop_sound (hg : Good b) {B : Pt b} {N : ℕ} (hB : Large B N) {cfg : Config C S}
    {reg offset : ℕ} {base : FixedPoint b} {G : Grid C (ZMod p)} {d : ℕ → ℕ}
    (hd : ∀ i < N, d i < 8) {w : ℕ} (hw : 0 < w) {acc : EccPoint C (ZMod p)} {ks : List (ZMod q)}
    (hN : w + ks.length < N)
    (hpt : ∀ j, j < N → ∀ v, Holds G (rowPoint cfg reg (offset + j) v) (entry B N j (d j)))
    (hacc : Holds G acc (psum d w • B)) {n n' : ℕ} {r : EccPoint C (ZMod p)}
    {ops : List (Op C S (ZMod p))}
    (h : addLoop cfg N reg offset base w acc ks n = some (r, n', ops))
    (hs : Sat (AddIncomplete.gates cfg.addIncomplete) G ops) :
    Holds G r (psum d (w + ks.length) • B) := by
  induction ks generalizing w acc n n' r ops with
  | nil => cases h; exact hacc
  | cons k ks ih =>
    unfold addLoop at h
    obtain ⟨mulB, n1, o1, o1', h1, h1', rfl⟩ := bind_some h
    obtain ⟨rfl, v, rfl⟩ := processWindow_shape h1
    obtain ⟨acc', n2, o2, o2', h2, h2', rfl⟩ := bind_some h1'
    simp only [List.length_cons] at hN ⊢
    have hP := hpt w (by omega) v
    have hent : entry B N w (d w) = ((d w + 2) * 8 ^ w) • B := by rw [entry, if_pos (by omega)]
    rw [hent] at hP
    have hle : psum d w < 2 * 8 ^ w := by
      have := psum_le (d := d) (n := w) fun i hi => hd i (by omega)
      have : 0 < 8 ^ w := by positivity
      omega
    have hle' : psum d (w + 1) < 2 * 8 ^ (N - 1) := by
      have h1 := psum_le (d := d) (n := w + 1) fun i hi => hd i (by omega)
      have h2 : 8 ^ (w + 1) ≤ 8 ^ (N - 1) := Nat.pow_le_pow_right (by norm_num) (by omega)
      have : 0 < 8 ^ (w + 1) := by positivity
      omega
    have hge : 2 * 8 ^ w ≤ (d w + 2) * 8 ^ w := Nat.mul_le_mul_right _ (by omega)
    have hpos := psum_pos d hw
    rw [psum] at hle'
    have e : (d w + 2) * 8 ^ w = ((d w + 2) * 8 ^ w - psum d w) + psum d w := by omega
    have hsum := AddIncomplete.sound hg h2 G hs.right.left hP hacc
      (hB _ (by omega) (by omega)) (hB _ hpos (by omega))
      (fun he => hB ((d w + 2) * 8 ^ w - psum d w) (by omega) (by omega) (by
        rw [e, add_smul, add_eq_right] at he; exact he))
      (fun he => hB ((d w + 2) * 8 ^ w + psum d w) (by omega) (by omega) (by
        rw [add_smul, he, neg_add_cancel]))
    rw [← add_smul, add_comm] at hsum
    have := ih (w := w + 1) (by omega) (by omega) hsum h2' hs.right.right
    rw [show w + (ks.length + 1) = w + 1 + ks.length by omega]
    exact this

/-- **The shared region is sound**: where the digits are in range, the two points returned are the
accumulated multiple and the point of the last window. -/
theorem inner_sound (hg : Good b) {base : FixedPoint b} {N : ℕ} (hN : 2 ≤ N)
    (hB : Large base.generator N) (hv : base.Valid N) {cfg : Config C S} {reg offset : ℕ}
    {windows : List (ZMod q)} {toggle : S} {n n' : ℕ} {acc mulB : EccPoint C (ZMod p)}
    {ops : List (Op C S (ZMod p))}
    (h : assignRegionInner cfg N reg offset windows base toggle n = some ((acc, mulB), n', ops))
    {G : Grid C (ZMod p)} (hs : Sat (AddIncomplete.gates cfg.addIncomplete) G ops) {d : ℕ → ℕ}
    (hd : ∀ i < N, d i < 8)
    (hcoords : ∀ w < N, .enable toggle reg ((w + offset : ℕ) : ℤ) ∈ ops →
      ∀ f ∈ coordsCheck b cfg (G.query reg ((w + offset : ℕ) : ℤ)) (d w : ZMod p), f = 0) :
    Holds G acc (psum d (N - 1) • base.generator) ∧
      Holds G mulB (entry base.generator N (N - 1) (d (N - 1))) := by
  unfold assignRegionInner at h
  obtain ⟨u1, n1, o1, o1', h1, h1', rfl⟩ := bind_some h
  obtain ⟨-, rfl, rfl⟩ := assert_some h1
  obtain ⟨u2, n2, o2, o2', h2, h2', rfl⟩ := bind_some h1'
  rw [assignFixedConstants_run cfg hv toggle reg offset 0 N _ (by omega)] at h2
  cases h2
  have hpt : ∀ j, j < N → ∀ v, Holds G (rowPoint cfg reg (offset + j) v)
      (entry base.generator N j (d j)) := by
    intro j hj v
    obtain ⟨f1, f2⟩ := fixed_values (cfg := cfg) (toggle := toggle) (reg := reg) (offset := offset) hv
      (G := G) (fun c v hm => hs.fixed c v (by simp [hm])) hj
    have := window_sound hg hv hj (hd j hj) f1 f2 (hcoords j hj (by
      refine List.mem_append_right _ (List.mem_append_left _ ?_)
      exact fixedOps_enable cfg base toggle reg offset (Nat.zero_le j) (by omega)))
    rw [Holds, this]
    simp only [Grid.query, add_zero, rowPoint, Grid.at, add_comm]
  obtain ⟨k0, n3, o3, o3', h3, h3', rfl⟩ := bind_some h2'
  obtain ⟨-, rfl, rfl⟩ := unwrap_some h3
  obtain ⟨acc0, n4, o4, o4', h4, h4', rfl⟩ := bind_some h3'
  obtain ⟨rfl, v0, rfl⟩ := processWindow_shape h4
  obtain ⟨u5, n5, o5, o5', h5, h5', rfl⟩ := bind_some h4'
  obtain ⟨hlen, rfl, rfl⟩ := assert_some h5
  obtain ⟨acc1, n6, o6, o6', h6, h6', rfl⟩ := bind_some h5'
  obtain ⟨k, n7, o7, o7', h7, h7', rfl⟩ := bind_some h6'
  obtain ⟨-, rfl, rfl⟩ := unwrap_some h7
  obtain ⟨mb, n8, o8, o8', h8, h8', rfl⟩ := bind_some h7'
  obtain ⟨rfl, v8, rfl⟩ := processWindow_shape h8
  cases h8'
  have hl : 1 + ((windows.take (N - 1)).drop 1).length = N - 1 := by
    simp [hlen]; omega
  have hacc0 : Holds G (rowPoint cfg reg (offset + 0) v0) (psum d 1 • base.generator) := by
    have := hpt 0 (by omega) v0
    rw [entry, if_pos (by omega)] at this
    simpa [psum] using this
  have hr := addLoop_sound hg hB hd (w := 1) (by omega) (by omega) hpt hacc0 h6
    (hs.mono (fun _ h => h) fun op hm => by simp [hm])
  rw [hl] at hr
  exact ⟨hr, hpt (N - 1) (by omega) v8⟩

end Verif.MulFixed
