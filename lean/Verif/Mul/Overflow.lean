import Verif.Mul.Model
import Verif.LookupRange.Props

/-!
# The overflow check of variable-base scalar multiplication
-/

namespace Verif.Mul.Overflow

open Verif.Region Verif.Utilities Verif.RunningSum

variable {C S : Type} {p : ℕ} [Fact p.Prime]

theorem two_pow_130 : ((2 ^ 124 : ℕ) : ZMod p) * ((2 ^ 6 : ℕ) : ZMod p) = ((2 ^ 130 : ℕ) : ZMod p) := by
  rw [← Nat.cast_mul, ← pow_add]

/-- Equal residues of numbers below twice the modulus. -/
theorem cast_cases {a b : ℕ} (ha : a < 2 * p) (hb : b < 2 * p) (h : (a : ZMod p) = (b : ZMod p)) :
    a = b ∨ a = b + p ∨ b = a + p := by
  rw [ZMod.natCast_eq_natCast_iff] at h
  rcases le_total a b with hab | hab
  · obtain ⟨c, hc⟩ := (Nat.modEq_iff_dvd' hab).1 h
    have hc2 : c < 2 := by
      by_contra hc'
      have : p * 2 ≤ p * c := Nat.mul_le_mul_left _ (by omega)
      omega
    interval_cases c
    · left; omega
    · right; right; omega
  · obtain ⟨c, hc⟩ := (Nat.modEq_iff_dvd' hab).1 h.symm
    have hc2 : c < 2 := by
      by_contra hc'
      have : p * 2 ≤ p * c := Nat.mul_le_mul_left _ (by omega)
      omega
    interval_cases c
    · left; omega
    · right; left; omega

/-- The equations of the overflow check, read as integers: soundness. -/
theorem arith_sound (hp : 2 ^ 254 < p) {K : ℕ} (hK : K < 2 ^ 255) {α s η sml z0 z130 k254 : ZMod p}
    (h0 : z0 = (K : ℕ)) (h130 : z130 = (K / 2 ^ 130 : ℕ)) (h254 : k254 = (K / 2 ^ 254 : ℕ))
    (hr : ∃ m < 2 ^ 130, s = (m : ℕ) + ((2 ^ 130 : ℕ) : ZMod p) * sml)
    (e1 : s - (α + k254 * (((2 ^ 124 : ℕ) : ZMod p) * ((2 ^ 6 : ℕ) : ZMod p))) = 0)
    (e2 : z0 - α - (T_Q : ZMod p) = 0) (e3 : k254 * (z130 - ((2 ^ 124 : ℕ) : ZMod p)) = 0)
    (e4 : k254 * sml = 0) (e5 : (1 - k254) * (1 - z130 * η) * sml = 0) : K = α.val + T_Q := by
  rw [two_pow_130] at e1
  have hαp : α.val < p := ZMod.val_lt α
  have hα : ((α.val : ℕ) : ZMod p) = α := ZMod.natCast_zmod_val α
  have hT : T_Q < 2 ^ 130 := by norm_num [T_Q]
  have hmod : ((K : ℕ) : ZMod p) = ((α.val + T_Q : ℕ) : ZMod p) := by
    push_cast
    rw [hα, ← h0]
    linear_combination e2
  have hc := cast_cases (by omega) (by omega) hmod
  obtain ⟨m, hm, hs⟩ := hr
  by_cases hk : K < 2 ^ 254
  · -- the top bit is 0
    have hk0 : K / 2 ^ 254 = 0 := Nat.div_eq_of_lt hk
    rw [hk0, Nat.cast_zero] at h254
    rcases hc with h | h | h
    · exact h
    · omega
    · exfalso
      have h130' : K / 2 ^ 130 = 0 := Nat.div_eq_of_lt (by omega)
      rw [h130', Nat.cast_zero] at h130
      rw [h254, h130] at e5
      have hsml : sml = 0 := by linear_combination e5
      rw [h254] at e1
      rw [hsml] at hs
      have : ((α.val : ℕ) : ZMod p) = ((m : ℕ) : ZMod p) := by
        rw [hα]; linear_combination hs - e1
      have := LookupRange.cast_inj hαp (by omega) this
      omega
  · -- the top bit is 1
    have hk1 : K / 2 ^ 254 = 1 := by
      rw [Nat.div_eq_iff (by norm_num)]; omega
    rw [hk1, Nat.cast_one] at h254
    rw [h254] at e1 e3 e4
    have hz : ((K / 2 ^ 130 : ℕ) : ZMod p) = ((2 ^ 124 : ℕ) : ZMod p) := by
      rw [← h130]; linear_combination e3
    have hz' := LookupRange.cast_inj (by omega) (by omega) hz
    have hK' : K < 2 ^ 254 + 2 ^ 130 := by
      have := Nat.lt_mul_div_succ K (show 0 < 2 ^ 130 by norm_num)
      rw [hz'] at this
      omega
    have hsml : sml = 0 := by linear_combination e4
    rw [hsml] at hs
    have : ((α.val + 2 ^ 130 : ℕ) : ZMod p) = ((m : ℕ) : ZMod p) := by
      push_cast at e1 ⊢
      rw [hα]; linear_combination hs - e1
    rcases cast_cases (by omega) (by omega) this with h | h | h
    · omega
    · rcases hc with h' | h' | h' <;> omega
    · omega

/-- The equations of the overflow check, read as integers: completeness. -/
theorem arith_complete (hp : 2 ^ 254 < p) (hpT : p + T_Q ≤ 2 ^ 254 + 2 ^ 130)
    {α s sml z0 z130 k254 : ZMod p} {K : ℕ} (hKd : K = α.val + T_Q)
    (h0 : z0 = (K : ℕ)) (h130 : z130 = (K / 2 ^ 130 : ℕ)) (h254 : k254 = (K / 2 ^ 254 : ℕ))
    (hs : s = α + k254 * ((2 ^ 130 : ℕ) : ZMod p)) (hr : sml = 0 ↔ s.val < 2 ^ 130) :
    s - (α + k254 * (((2 ^ 124 : ℕ) : ZMod p) * ((2 ^ 6 : ℕ) : ZMod p))) = 0 ∧
    z0 - α - (T_Q : ZMod p) = 0 ∧ k254 * (z130 - ((2 ^ 124 : ℕ) : ZMod p)) = 0 ∧
    k254 * sml = 0 ∧ (1 - k254) * (1 - z130 * z130⁻¹) * sml = 0 := by
  rw [two_pow_130]
  have hαp : α.val < p := ZMod.val_lt α
  have hα : ((α.val : ℕ) : ZMod p) = α := ZMod.natCast_zmod_val α
  have hT : T_Q < 2 ^ 130 := by norm_num [T_Q]
  refine ⟨by rw [hs]; ring, ?_, ?_⟩
  · rw [h0, hKd]; push_cast; rw [hα]; ring
  by_cases hk : K < 2 ^ 254
  · have hk0 : K / 2 ^ 254 = 0 := Nat.div_eq_of_lt hk
    rw [hk0, Nat.cast_zero] at h254
    rw [h254]
    refine ⟨by ring, by ring, ?_⟩
    by_cases hz : z130 = 0
    · have hz' : ((K / 2 ^ 130 : ℕ) : ZMod p) = ((0 : ℕ) : ZMod p) := by
        rw [← h130, hz, Nat.cast_zero]
      have hz'' := LookupRange.cast_inj (by omega) (by omega) hz'
      have hlt : K < 2 ^ 130 := by
        rw [Nat.div_eq_zero_iff] at hz''; omega
      have : sml = 0 := by
        rw [hr, hs, h254, zero_mul, add_zero]; omega
      rw [this]; ring
    · rw [mul_inv_cancel₀ hz]; ring
  · have hk1 : K / 2 ^ 254 = 1 := by
      rw [Nat.div_eq_iff (by norm_num)]; omega
    rw [hk1, Nat.cast_one] at h254
    rw [h254] at hs ⊢
    have hz : K / 2 ^ 130 = 2 ^ 124 := by
      rw [Nat.div_eq_iff (by norm_num)]; omega
    rw [hz] at h130
    have hsml : sml = 0 := by
      rw [hr, hs, one_mul, ← hα, ← Nat.cast_add, ZMod.val_natCast]
      have e : α.val + 2 ^ 130 = p + (α.val + 2 ^ 130 - p) := by omega
      rw [e, Nat.add_mod_left, Nat.mod_eq_of_lt (by omega)]
      omega
    rw [h130, hsml]
    refine ⟨by ring, by ring, by ring⟩

/-! ## The program -/

/-- The value of `s`. -/
def sVal (alpha k254 : ACell C (ZMod p)) : ZMod p :=
  alpha.value + k254.value * ((2 ^ 65 : ℕ) : ZMod p) ^ 2

/-- The cell of `s`. -/
def sCell (cfg : Config C S) (n : ℕ) (alpha k254 : ACell C (ZMod p)) : ACell C (ZMod p) :=
  ⟨⟨n, cfg.a0, 0⟩, sVal alpha k254⟩

/-- The last running sum of the range check. -/
def smlCell (cfg : Config C S) (n : ℕ) (alpha k254 : ACell C (ZMod p)) : ACell C (ZMod p) :=
  (LookupRange.copyCheckCells 10 cfg.lookup (n + 1) (sCell cfg n alpha k254) 13)[13]'
    (LookupRange.copyCheckCells_last 10 cfg.lookup (n + 1) (sCell cfg n alpha k254) 13).1

/-- The operations of the last region. -/
def lastOps (cfg : Config C S) (n : ℕ) (alpha z0 z130 k254 : ACell C (ZMod p)) :
    List (Op C S (ZMod p)) :=
  let r := n + 2
  [.enable cfg.qMulOverflow r 1,
    .advice ⟨r, cfg.a0, 0⟩ z0.value, .equal ⟨r, cfg.a0, 0⟩ z0.cell,
    .advice ⟨r, cfg.a0, 1⟩ z130.value, .equal ⟨r, cfg.a0, 1⟩ z130.cell,
    .advice ⟨r, cfg.a0, 2⟩ z130.value⁻¹,
    .advice ⟨r, cfg.a1, 0⟩ k254.value, .equal ⟨r, cfg.a1, 0⟩ k254.cell,
    .advice ⟨r, cfg.a1, 1⟩ alpha.value, .equal ⟨r, cfg.a1, 1⟩ alpha.cell,
    .advice ⟨r, cfg.a1, 2⟩ (smlCell cfg n alpha k254).value,
    .equal ⟨r, cfg.a1, 2⟩ (smlCell cfg n alpha k254).cell,
    .advice ⟨r, cfg.a2, 1⟩ (sVal alpha k254), .equal ⟨r, cfg.a2, 1⟩ ⟨n, cfg.a0, 0⟩]

/-- The operations of the overflow check. -/
def ops (cfg : Config C S) (n : ℕ) (alpha z0 z130 k254 : ACell C (ZMod p)) :
    List (Op C S (ZMod p)) :=
  [.advice ⟨n, cfg.a0, 0⟩ (sVal alpha k254)] ++
  (LookupRange.copyCheckOps 10 cfg.lookup (n + 1) (sCell cfg n alpha k254) 13 false ++
  lastOps cfg n alpha z0 z130 k254)

theorem run {cfg : Config C S} {alpha : ACell C (ZMod p)} {zs : List (ACell C (ZMod p))}
    {z0 z130 k254 : ACell C (ZMod p)} (h0 : zs[0]? = some z0) (h130 : zs[130]? = some z130)
    (h254 : zs[254]? = some k254) (hp : p ≠ 2) (n : ℕ) :
    overflowCheck cfg alpha zs n = some ((), n + 3, ops cfg n alpha z0 z130 k254) := by
  unfold overflowCheck
  rw [h0, h130, h254]
  have hu : ∀ {α β : Type} (a : α) (f : α → M C S (ZMod p) β) (n : ℕ),
      ((unwrap (some a) : M C S (ZMod p) α) >>= f) n = f a n := by
    intro α β a f n
    rw [bind_apply]
    have e : (unwrap (some a) : M C S (ZMod p) α) n = some (a, n, []) := rfl
    rw [e]
    dsimp only
    rcases f a n with _ | ⟨b, m, o⟩ <;> rfl
  rw [hu]
  unfold ops
  refine bind_of (a := sCell cfg n alpha k254) (n' := n + 1)
    (ops₁ := [.advice ⟨n, cfg.a0, 0⟩ (sVal alpha k254)]) rfl ?_
  refine bind_of (a := smlCell cfg n alpha k254) (n' := n + 2) ?_ ?_
  · unfold sMinusLo130
    have hc := LookupRange.copyCheck_run (reprBits := 256) (capacity := 254) (K := 10)
      (cfg := cfg.lookup) (element := sCell cfg n alpha k254) (numWords := 130 / 10)
      (strict := false) (n := n + 1) (by norm_num) (by norm_num) (by norm_num) (by norm_num) hp
    rw [assert_bind (by norm_num)]
    rw [bind_apply, hc]
    obtain ⟨hl, hl', -⟩ := LookupRange.copyCheckCells_last 10 cfg.lookup (n + 1)
      (sCell cfg n alpha k254) 13
    have e : (LookupRange.copyCheckCells 10 cfg.lookup (n + 1) (sCell cfg n alpha k254)
        (130 / 10))[(LookupRange.copyCheckCells 10 cfg.lookup (n + 1) (sCell cfg n alpha k254)
        (130 / 10)).length - 1]? = some (smlCell cfg n alpha k254) := by
      have : (LookupRange.copyCheckCells 10 cfg.lookup (n + 1) (sCell cfg n alpha k254)
        (130 / 10)).length - 1 = 13 := by
        change (LookupRange.copyCheckCells 10 cfg.lookup (n + 1) (sCell cfg n alpha k254)
          13).length - 1 = 13
        omega
      rw [this]
      exact List.getElem?_eq_getElem hl
    dsimp only
    rw [e]
    simp only [unwrap, Option.map_some, List.append_nil]
  · unfold Region.assignRegion
    refine bind_of (a := ()) (n' := n + 3) (ops₁ := [.enable cfg.qMulOverflow (n + 2) 1]) rfl ?_
    rw [hu]
    have hp : ∀ {α : Type} (a : α) (n : ℕ), (pure a : M C S (ZMod p) α) n = some (a, n, []) :=
      fun _ _ => rfl
    simp only [bind_apply, ACell.copyAdvice, assignAdvice, constrainEqual, emit, hp, unwrap,
      Option.map_some, List.append_nil]
    rfl

theorem run_some {cfg : Config C S} {alpha : ACell C (ZMod p)} {zs : List (ACell C (ZMod p))}
    {n n' : ℕ} {u : Unit} {os : List (Op C S (ZMod p))} (hp : p ≠ 2)
    (h : overflowCheck cfg alpha zs n = some (u, n', os)) :
    ∃ z0 z130 k254, zs[0]? = some z0 ∧ zs[130]? = some z130 ∧ zs[254]? = some k254 ∧
      n' = n + 3 ∧ os = ops cfg n alpha z0 z130 k254 := by
  have hex : ∃ k254, zs[254]? = some k254 := by
    unfold overflowCheck at h
    obtain ⟨k, _, _, _, h1, _, _⟩ := bind_some h
    unfold unwrap at h1
    cases hz : zs[254]? with
    | none => rw [hz] at h1; cases h1
    | some k => exact ⟨k, rfl⟩
  obtain ⟨k254, hk⟩ := hex
  have hl : 254 < zs.length := by
    by_contra hc
    rw [List.getElem?_eq_none (by omega)] at hk
    cases hk
  have h0 : zs[0]? = some zs[0] := List.getElem?_eq_getElem (by omega)
  have h130 : zs[130]? = some zs[130] := List.getElem?_eq_getElem (by omega)
  refine ⟨_, _, k254, h0, h130, hk, ?_⟩
  rw [run h0 h130 hk hp] at h
  simp only [Option.some.injEq, Prod.mk.injEq] at h
  exact ⟨h.2.1.symm, h.2.2.symm⟩

theorem ops_enables {cfg : Config C S} {n : ℕ} {alpha z0 z130 k254 : ACell C (ZMod p)} {q : S}
    {r : ℕ} {row : ℤ} (h : .enable q r row ∈ ops cfg n alpha z0 z130 k254) :
    ((q = cfg.lookup.qLookup ∨ q = cfg.lookup.qRunning) ∧ r = n + 1 ∧
      .enable q r row ∈ LookupRange.copyCheckOps 10 cfg.lookup (n + 1)
        (sCell cfg n alpha k254) 13 false) ∨
    (q = cfg.qMulOverflow ∧ r = n + 2 ∧ row = 1) := by
  unfold ops at h
  rcases List.mem_append.1 h with h | h
  · simp at h
  rcases List.mem_append.1 h with h | h
  · obtain ⟨h1, h2⟩ := LookupRange.copyCheckOps_enables h
    exact .inl ⟨h1, h2, h⟩
  · right
    simpa [lastOps] using h

/-- **C41**, soundness of the overflow check: if the decomposed number is `K`, then
`K = α + t_q` as integers. -/
theorem sound (hp : 2 ^ 254 < p) {cfg : Config C S} (hd : cfg.lookup.Distinct)
    {alpha : ACell C (ZMod p)} {zs : List (ACell C (ZMod p))} {n n' : ℕ} {u : Unit}
    {os tot : List (Op C S (ZMod p))} (h : overflowCheck cfg alpha zs n = some (u, n', os))
    (hsub : ∀ op ∈ os, op ∈ tot)
    (hsel : ∀ q row, .enable q (n + 1) row ∈ tot → .enable q (n + 1) row ∈ os)
    (G : Grid C (ZMod p)) (hs : Sat (gates cfg ++ LookupRange.gates 10 cfg.lookup) G tot)
    (hl : SatLookup (LookupRange.lookup 10 cfg.lookup) G tot (n + 1)) {K : ℕ} (hK : K < 2 ^ 255)
    (hz : ∀ j c, zs[j]? = some c → G.at c.cell = ((K / 2 ^ j : ℕ) : ZMod p)) :
    K = (G.at alpha.cell).val + T_Q := by
  have hbig : 2 ^ 254 > 5 := by norm_num
  obtain ⟨z0, z130, k254, h0, h130, h254, -, rfl⟩ := run_some (by omega) h
  have hcs : ∀ op ∈ LookupRange.copyCheckOps 10 cfg.lookup (n + 1) (sCell cfg n alpha k254) 13 false,
      op ∈ tot := fun op hm => hsub op (List.mem_append_right _ (List.mem_append_left _ hm))
  have hcsel : ∀ q row, .enable q (n + 1) row ∈ tot → .enable q (n + 1) row ∈
      LookupRange.copyCheckOps 10 cfg.lookup (n + 1) (sCell cfg n alpha k254) 13 false := by
    intro q row hm
    rcases ops_enables (hsel q row hm) with ⟨-, -, h⟩ | ⟨-, h, -⟩
    · exact h
    · omega
  obtain ⟨m, hm, hsv⟩ := (LookupRange.copyCheck_loose hd (by norm_num) (by norm_num) (by omega) hcs
    hcsel).1 G (hs.mono (fun g h => List.mem_append_right _ h) fun _ h => h) hl
  have hlast : ∀ op ∈ lastOps cfg n alpha z0 z130 k254, op ∈ tot := fun op hm =>
    hsub op (List.mem_append_right _ (List.mem_append_right _ hm))
  have hgate := hs.gates _ (List.mem_append_left _ (List.mem_singleton.2 rfl)) (n + 2) 1
    (hlast _ (by simp [lastOps]))
  have c1 : G (n + 2) cfg.a0 0 = G.at z0.cell :=
    hs.equal ⟨n + 2, cfg.a0, 0⟩ _ (hlast _ (by simp [lastOps]))
  have c2 : G (n + 2) cfg.a0 1 = G.at z130.cell :=
    hs.equal ⟨n + 2, cfg.a0, 1⟩ _ (hlast _ (by simp [lastOps]))
  have c3 : G (n + 2) cfg.a1 0 = G.at k254.cell :=
    hs.equal ⟨n + 2, cfg.a1, 0⟩ _ (hlast _ (by simp [lastOps]))
  have c4 : G (n + 2) cfg.a1 1 = G.at alpha.cell :=
    hs.equal ⟨n + 2, cfg.a1, 1⟩ _ (hlast _ (by simp [lastOps]))
  have c5 : G (n + 2) cfg.a1 2 = G.at (smlCell cfg n alpha k254).cell :=
    hs.equal ⟨n + 2, cfg.a1, 2⟩ _ (hlast _ (by simp [lastOps]))
  have c6 : G (n + 2) cfg.a2 1 = G.at ⟨n, cfg.a0, 0⟩ :=
    hs.equal ⟨n + 2, cfg.a2, 1⟩ _ (hlast _ (by simp [lastOps]))
  have hsml : G.at (smlCell cfg n alpha k254).cell = G (n + 1) cfg.lookup.runningSum 13 := by
    unfold smlCell
    rw [(LookupRange.copyCheckCells_last 10 cfg.lookup (n + 1) (sCell cfg n alpha k254) 13).2.2]
    rfl
  simp only [Grid.query, List.mem_cons, List.not_mem_nil, or_false, forall_eq_or_imp, forall_eq]
    at hgate
  have r0 : (1 : ℤ) + -1 = 0 := by norm_num
  have r1 : (1 : ℤ) + 1 = 2 := by norm_num
  simp only [r0, r1, add_zero, c1, c2, c3, c4, c5, c6, hsml] at hgate
  obtain ⟨e1, e2, e3, e4, e5⟩ := hgate
  refine arith_sound hp hK (z0 := G.at z0.cell) (z130 := G.at z130.cell) (k254 := G.at k254.cell)
    ?_ (hz 130 _ h130) (hz 254 _ h254) ⟨m, hm, ?_⟩ e1 e2 e3 e4 e5
  · have := hz 0 _ h0
    rwa [pow_zero, Nat.div_one] at this
  · exact hsv

/-- **C41**, completeness of the overflow check. -/
theorem complete (hp : 2 ^ 254 < p) (hpT : p + T_Q ≤ 2 ^ 254 + 2 ^ 130) {cfg : Config C S}
    (hd : cfg.lookup.Distinct)
    (hq : cfg.qMulOverflow ≠ cfg.lookup.qLookup ∧ cfg.qMulOverflow ≠ cfg.lookup.qRunning ∧
      cfg.qMulOverflow ≠ cfg.lookup.qBitshift)
    {alpha : ACell C (ZMod p)} {zs : List (ACell C (ZMod p))} (n : ℕ) {K : ℕ}
    (hK : K = alpha.value.val + T_Q) (hlen : 254 < zs.length)
    (hz : ∀ j c, zs[j]? = some c → c.value = ((K / 2 ^ j : ℕ) : ZMod p)) :
    ∃ os, overflowCheck cfg alpha zs n = some ((), n + 3, os) ∧
      (∀ q r row, .enable q r row ∈ os → q = cfg.lookup.qLookup ∧ r = n + 1 ∨
        q = cfg.lookup.qRunning ∧ r = n + 1 ∨ q = cfg.qMulOverflow) ∧
      ∀ tot, (∀ op ∈ os, op ∈ tot) →
        (∀ q row, .enable q (n + 1) row ∈ tot → .enable q (n + 1) row ∈ os) →
        ∀ G, Honest G os → G.at alpha.cell = alpha.value → (∀ c ∈ zs, G.at c.cell = c.value) →
          Sat (gates cfg ++ LookupRange.gates 10 cfg.lookup) G os ∧
          SatLookup (LookupRange.lookup 10 cfg.lookup) G tot (n + 1) := by
  have hbig : 2 ^ 254 > 5 := by norm_num
  have h0 : zs[0]? = some zs[0] := List.getElem?_eq_getElem (by omega)
  have h130 : zs[130]? = some zs[130] := List.getElem?_eq_getElem (by omega)
  have h254 : zs[254]? = some zs[254] := List.getElem?_eq_getElem (by omega)
  set z0 := zs[0] with hz0
  set z130 := zs[130] with hz130
  set k254 := zs[254] with hk254
  refine ⟨_, run h0 h130 h254 (by omega) n, ?_, ?_⟩
  · intro q r row hm
    rcases ops_enables hm with ⟨h | h, h', -⟩ | ⟨h, -⟩
    · exact .inl ⟨h, h'⟩
    · exact .inr (.inl ⟨h, h'⟩)
    · exact .inr (.inr h)
  intro tot hsub hsel G hG hGa hGz
  have hcs : ∀ op ∈ LookupRange.copyCheckOps 10 cfg.lookup (n + 1) (sCell cfg n alpha k254) 13 false,
      op ∈ tot := fun op hm => hsub op (List.mem_append_right _ (List.mem_append_left _ hm))
  have hcsel : ∀ q row, .enable q (n + 1) row ∈ tot → .enable q (n + 1) row ∈
      LookupRange.copyCheckOps 10 cfg.lookup (n + 1) (sCell cfg n alpha k254) 13 false := by
    intro q row hm
    rcases ops_enables (hsel q row hm) with ⟨-, -, h⟩ | ⟨-, h, -⟩
    · exact h
    · omega
  have gs : G n cfg.a0 0 = sVal alpha k254 := hG.1 ⟨n, cfg.a0, 0⟩ _ (by simp [ops])
  obtain ⟨s1, s2, s3, s4⟩ := (LookupRange.copyCheck_loose hd (by norm_num) (by norm_num) (by omega)
    hcs hcsel).2 G hG.right.left gs
  refine ⟨Sat.append ?_ (Sat.append ?_ ?_), s2⟩
  · constructor <;> simp
  · refine ⟨?_, s1.equal, s1.const, s1.fixed⟩
    intro g hg r row hm
    rcases List.mem_append.1 hg with hg | hg
    · obtain ⟨h1 | h1, -⟩ := LookupRange.copyCheckOps_enables hm
      · rw [List.mem_singleton.1 hg] at h1; exact absurd h1 hq.1
      · rw [List.mem_singleton.1 hg] at h1; exact absurd h1 hq.2.1
    · exact s1.gates g hg r row hm
  · have hG' : Honest G (lastOps cfg n alpha z0 z130 k254) := hG.right.right
    have c1 : G (n + 2) cfg.a0 0 = z0.value := hG'.1 ⟨n + 2, cfg.a0, 0⟩ _ (by simp [lastOps])
    have c2 : G (n + 2) cfg.a0 1 = z130.value := hG'.1 ⟨n + 2, cfg.a0, 1⟩ _ (by simp [lastOps])
    have c2' : G (n + 2) cfg.a0 2 = z130.value⁻¹ := hG'.1 ⟨n + 2, cfg.a0, 2⟩ _ (by simp [lastOps])
    have c3 : G (n + 2) cfg.a1 0 = k254.value := hG'.1 ⟨n + 2, cfg.a1, 0⟩ _ (by simp [lastOps])
    have c4 : G (n + 2) cfg.a1 1 = alpha.value := hG'.1 ⟨n + 2, cfg.a1, 1⟩ _ (by simp [lastOps])
    have c5 : G (n + 2) cfg.a1 2 = (smlCell cfg n alpha k254).value :=
      hG'.1 ⟨n + 2, cfg.a1, 2⟩ _ (by simp [lastOps])
    have c6 : G (n + 2) cfg.a2 1 = sVal alpha k254 :=
      hG'.1 ⟨n + 2, cfg.a2, 1⟩ _ (by simp [lastOps])
    have hmem : smlCell cfg n alpha k254 ∈
        LookupRange.copyCheckCells 10 cfg.lookup (n + 1) (sCell cfg n alpha k254) 13 :=
      List.getElem_mem _
    have hsml := s3 _ hmem
    have hsml' : G.at (smlCell cfg n alpha k254).cell = G (n + 1) cfg.lookup.runningSum 13 := by
      unfold smlCell
      rw [(LookupRange.copyCheckCells_last 10 cfg.lookup (n + 1) (sCell cfg n alpha k254) 13).2.2]
      rfl
    have m0 : z0 ∈ zs := List.getElem_mem _
    have m130 : z130 ∈ zs := List.getElem_mem _
    have m254 : k254 ∈ zs := List.getElem_mem _
    have e65 : ((2 ^ 65 : ℕ) : ZMod p) ^ 2 = ((2 ^ 130 : ℕ) : ZMod p) := by
      rw [← Nat.cast_pow, ← pow_mul]
    have hv0 := hz 0 _ h0
    rw [pow_zero, Nat.div_one] at hv0
    obtain ⟨e1, e2, e3, e4, e5⟩ := arith_complete hp hpT (α := alpha.value) (s := sVal alpha k254)
      (sml := (smlCell cfg n alpha k254).value) hK hv0 (hz 130 _ h130) (hz 254 _ h254)
      (by rw [sVal, e65]) (by rw [← hsml, hsml']; exact s4)
    constructor
    · intro g hg r row hm
      simp only [lastOps, List.mem_cons, Op.enable.injEq, reduceCtorEq, List.not_mem_nil,
        or_false] at hm
      obtain ⟨hm1, rfl, rfl⟩ := hm
      rcases List.mem_append.1 hg with hg | hg
      · rw [List.mem_singleton.1 hg]
        have r0 : (1 : ℤ) + -1 = 0 := by norm_num
        have r1 : (1 : ℤ) + 1 = 2 := by norm_num
        simp only [Grid.query, r0, r1, add_zero, c1, c2, c2', c3, c4, c5, c6, List.mem_cons,
          List.not_mem_nil, or_false, forall_eq_or_imp, forall_eq]
        exact ⟨e1, e2, e3, e4, e5⟩
      · rw [List.mem_singleton.1 hg] at hm1
        exact absurd hm1.symm hq.2.2
    · intro x y hm
      simp only [lastOps, List.mem_cons, Op.equal.injEq, reduceCtorEq, List.not_mem_nil,
        or_false, false_or] at hm
      rcases hm with ⟨rfl, rfl⟩ | ⟨rfl, rfl⟩ | ⟨rfl, rfl⟩ | ⟨rfl, rfl⟩ | ⟨rfl, rfl⟩ | ⟨rfl, rfl⟩
      · rw [hGz _ m0]; exact c1
      · rw [hGz _ m130]; exact c2
      · rw [hGz _ m254]; exact c3
      · rw [hGa]; exact c4
      · rw [hsml]; exact c5
      · exact c6.trans gs.symm
    · intro x v hm; simp [lastOps] at hm
    · intro x v hm; simp [lastOps] at hm

end Verif.Mul.Overflow
