import Verif.LookupRange.Model
import Verif.RunningSum.Props

/-!
# Lookup range checks (C36)
-/

namespace Verif.LookupRange

open Verif.Region Verif.Utilities Verif.RunningSum

variable {C S : Type}

/-- The selectors of the configuration are different selectors. -/
structure Config.Distinct (cfg : Config C S) : Prop where
  rl : cfg.qRunning ≠ cfg.qLookup
  rb : cfg.qRunning ≠ cfg.qBitshift
  lb : cfg.qLookup ≠ cfg.qBitshift
  tag : ∀ q4 q5, cfg.variant = .tagged q4 q5 → q4 ≠ q5 ∧
    ∀ q ∈ [cfg.qRunning, cfg.qLookup, cfg.qBitshift], q4 ≠ q ∧ q5 ≠ q

section

variable {F : Type} [Field F]

theorem selectors_on {ops : List (Op C S F)} {s : S} {reg : ℕ} {row : ℤ}
    (h : .enable s reg row ∈ ops) : selectors ops reg row s = 1 := if_pos h

theorem selectors_off {ops : List (Op C S F)} {s : S} {reg : ℕ} {row : ℤ}
    (h : .enable s reg row ∉ ops) : selectors ops reg row s = 0 := if_neg h

/-- The lookups in a region only depend on the selectors enabled in it. -/
theorem SatLookup.congr {l : LookupArg C S F} {G : Grid C F} {ops ops' : List (Op C S F)} {reg : ℕ}
    (h : ∀ s row, (.enable s reg row : Op C S F) ∈ ops ↔ .enable s reg row ∈ ops') :
    SatLookup l G ops reg ↔ SatLookup l G ops' reg := by
  unfold SatLookup
  have : ∀ row, (selectors ops reg row : S → F) = selectors ops' reg row := by
    intro row; funext s; classical exact if_congr (h s row) rfl rfl
  simp only [this]

end

section

variable {F : Type} [Field F] (K : ℕ) (cfg : Config C S)

/-- At a row where only `qLookup` and `qRunning` are on, the lookup says that the difference of
the running sums is a `K`-bit word. -/
theorem lookup_running {sel : S → F} {q : C → ℤ → F} (hl : sel cfg.qLookup = 1)
    (hr : sel cfg.qRunning = 1) (ht : ∀ q4 q5, cfg.variant = .tagged q4 q5 → sel q4 = 0 ∧ sel q5 = 0)
    (h4 : (4 : F) ≠ 0) (h5 : (5 : F) ≠ 0) :
    (lookup K cfg).input sel q ∈ (lookup K cfg).table ↔
      ∃ k : ℕ, k < 2 ^ K ∧ q cfg.runningSum 0 - q cfg.runningSum 1 * ((2 ^ K : ℕ) : F) = (k : F) := by
  unfold lookup
  dsimp only
  cases hv : cfg.variant with
  | base =>
    simp only [hl, hr, List.mem_map, List.mem_range, List.cons.injEq, and_true, one_mul, sub_self,
      zero_mul, add_zero, eq_comm]
  | tagged q4 q5 =>
    obtain ⟨e4, e5⟩ := ht q4 q5 hv
    simp only [hl, hr, e4, e5, List.mem_append, List.mem_map, List.mem_range, List.cons.injEq,
      and_true, one_mul, sub_self, sub_zero, mul_one, zero_mul, add_zero, mul_zero, h4.symm, h5.symm,
      and_false, exists_false, or_false, eq_comm]

/-- At a row where only `qLookup` is on, the lookup says that the cell is a `K`-bit word. -/
theorem lookup_short {sel : S → F} {q : C → ℤ → F} (hl : sel cfg.qLookup = 1)
    (hr : sel cfg.qRunning = 0) (ht : ∀ q4 q5, cfg.variant = .tagged q4 q5 → sel q4 = 0 ∧ sel q5 = 0)
    (h4 : (4 : F) ≠ 0) (h5 : (5 : F) ≠ 0) :
    (lookup K cfg).input sel q ∈ (lookup K cfg).table ↔
      ∃ k : ℕ, k < 2 ^ K ∧ q cfg.runningSum 0 = (k : F) := by
  unfold lookup
  dsimp only
  cases hv : cfg.variant with
  | base =>
    simp only [hl, hr, List.mem_map, List.mem_range, List.cons.injEq, and_true, one_mul, sub_zero,
      zero_mul, zero_add, eq_comm]
  | tagged q4 q5 =>
    obtain ⟨e4, e5⟩ := ht q4 q5 hv
    simp only [hl, hr, e4, e5, List.mem_append, List.mem_map, List.mem_range, List.cons.injEq,
      and_true, one_mul, sub_self, sub_zero, mul_one, zero_mul, zero_add, add_zero, mul_zero, h4.symm, h5.symm,
      and_false, exists_false, or_false, eq_comm]

/-- At a row where `qLookup` is off, the lookup holds. -/
theorem lookup_off {sel : S → F} {q : C → ℤ → F} (hl : sel cfg.qLookup = 0) :
    (lookup K cfg).input sel q ∈ (lookup K cfg).table := by
  unfold lookup
  dsimp only
  cases hv : cfg.variant with
  | base =>
    simp only [hl, zero_mul, List.mem_map, List.mem_range]
    exact ⟨0, by positivity, by simp⟩
  | tagged q4 q5 =>
    simp only [hl, zero_mul, List.mem_append, List.mem_map, List.mem_range]
    exact .inl (.inl ⟨0, by positivity, by simp⟩)

theorem lookup_4 {q4 q5 : S} (hv : cfg.variant = .tagged q4 q5) {sel : S → F} {q : C → ℤ → F}
    (hl : sel cfg.qLookup = 1) (e4 : sel q4 = 1) (e5 : sel q5 = 0) (h4 : (4 : F) ≠ 0)
    (h45 : (4 : F) ≠ 5) :
    (lookup K cfg).input sel q ∈ (lookup K cfg).table ↔
      ∃ k : ℕ, k < 2 ^ 4 ∧ q cfg.runningSum 0 = (k : F) := by
  unfold lookup
  simp only [hv, hl, e4, e5, List.mem_append, List.mem_map, List.mem_range, List.cons.injEq,
    and_true, one_mul, sub_self, sub_zero, mul_one, zero_mul, zero_add, h4.symm, h45,
    and_false, exists_false, or_false, false_or, eq_comm]

theorem lookup_5 {q4 q5 : S} (hv : cfg.variant = .tagged q4 q5) {sel : S → F} {q : C → ℤ → F}
    (hl : sel cfg.qLookup = 1) (e4 : sel q4 = 0) (e5 : sel q5 = 1) (h5 : (5 : F) ≠ 0)
    (h45 : (4 : F) ≠ 5) :
    (lookup K cfg).input sel q ∈ (lookup K cfg).table ↔
      ∃ k : ℕ, k < 2 ^ 5 ∧ q cfg.runningSum 0 = (k : F) := by
  unfold lookup
  simp only [hv, hl, e4, e5, List.mem_append, List.mem_map, List.mem_range, List.cons.injEq,
    and_true, one_mul, sub_self, sub_zero, mul_one, zero_mul, mul_zero, add_zero, zero_add, h5.symm, h45,
    and_false, exists_false, or_false, false_or, eq_comm]

end

variable {p : ℕ} [Fact p.Prime]

/-- Natural numbers below the modulus are different field elements. -/
theorem cast_inj {a b : ℕ} (ha : a < p) (hb : b < p) (h : (a : ZMod p) = (b : ZMod p)) : a = b := by
  have := congrArg ZMod.val h
  rwa [ZMod.val_natCast, ZMod.val_natCast, Nat.mod_eq_of_lt ha, Nat.mod_eq_of_lt hb] at this

theorem cast_ne {a b : ℕ} (ha : a < p) (hb : b < p) (h : a ≠ b) : (a : ZMod p) ≠ (b : ZMod p) :=
  fun e => h (cast_inj ha hb e)

/-! ## Short range checks -/

/-- The operations of the short range check. -/
def shortOps (K : ℕ) (cfg : Config C S) (reg : ℕ) (element : ACell C (ZMod p)) (s : ℕ) :
    List (Op C S (ZMod p)) :=
  let base : List (Op C S (ZMod p)) := [.enable cfg.qLookup reg 0, .enable cfg.qLookup reg 1,
    .enable cfg.qBitshift reg 1,
    .advice ⟨reg, cfg.runningSum, 1⟩ (element.value * ((2 ^ (K - s) : ℕ) : ZMod p)),
    .advice ⟨reg, cfg.runningSum, 2⟩ ((2 ^ s : ℕ) : ZMod p)⁻¹,
    .const ⟨reg, cfg.runningSum, 2⟩ ((2 ^ s : ℕ) : ZMod p)⁻¹]
  match cfg.variant with
  | .base => base
  | .tagged q4 q5 => if s = 4 then [.enable cfg.qLookup reg 0, .enable q4 reg 0]
    else if s = 5 then [.enable cfg.qLookup reg 0, .enable q5 reg 0] else base

theorem shortBase_run {K : ℕ} {cfg : Config C S} {reg : ℕ} {element : ACell C (ZMod p)} {s n : ℕ}
    (h2 : ((2 ^ s : ℕ) : ZMod p) ≠ 0) :
    shortRangeCheckBase K cfg reg element s n = some ((), n,
      [.enable cfg.qLookup reg 0, .enable cfg.qLookup reg 1, .enable cfg.qBitshift reg 1,
    .advice ⟨reg, cfg.runningSum, 1⟩ (element.value * ((2 ^ (K - s) : ℕ) : ZMod p)),
    .advice ⟨reg, cfg.runningSum, 2⟩ ((2 ^ s : ℕ) : ZMod p)⁻¹,
    .const ⟨reg, cfg.runningSum, 2⟩ ((2 ^ s : ℕ) : ZMod p)⁻¹]) := by
  unfold shortRangeCheckBase
  refine bind_of (a := ()) (n' := n) (ops₁ := [.enable cfg.qLookup reg 0]) rfl
    (bind_of (a := ()) (n' := n) (ops₁ := [.enable cfg.qLookup reg 1]) rfl
    (bind_of (a := ()) (n' := n) (ops₁ := [.enable cfg.qBitshift reg 1]) rfl
    (bind_of (n' := n) (ops₁ := [.advice ⟨reg, cfg.runningSum, 1⟩
      (element.value * ((2 ^ (K - s) : ℕ) : ZMod p))]) rfl
    (bind_of (assert_of h2 n) rfl))))

theorem short_run {K : ℕ} {cfg : Config C S} {reg : ℕ} {element : ACell C (ZMod p)} {s n : ℕ}
    (h2 : ((2 ^ s : ℕ) : ZMod p) ≠ 0) :
    shortRangeCheck K cfg reg element s n = some ((), n, shortOps K cfg reg element s) := by
  unfold shortRangeCheck shortOps
  cases hv : cfg.variant with
  | base => exact shortBase_run h2
  | tagged q4 q5 =>
    dsimp only
    split_ifs
    · rfl
    · rfl
    · exact shortBase_run h2

/-- The number-theoretic core: the bit shift with two lookups is a range check. -/
theorem shift_range {K s : ℕ} (hs : s ≤ K) (hp : 2 ^ (2 * K) ≤ p) (x sh inv : ZMod p)
    (hx : ∃ k : ℕ, k < 2 ^ K ∧ x = (k : ZMod p)) (hsh : ∃ k : ℕ, k < 2 ^ K ∧ sh = (k : ZMod p))
    (hinv : inv = ((2 ^ s : ℕ) : ZMod p)⁻¹) (h2 : ((2 ^ s : ℕ) : ZMod p) ≠ 0)
    (hg : x * ((2 ^ K : ℕ) : ZMod p) * inv - sh = 0) : x.val < 2 ^ s := by
  obtain ⟨k, hk, rfl⟩ := hx
  obtain ⟨m, hm, rfl⟩ := hsh
  have hKs : 2 ^ K = 2 ^ (K - s) * 2 ^ s := by rw [← pow_add]; congr 1; omega
  have hKp : 2 ^ K ≤ p := le_trans (Nat.pow_le_pow_right (by norm_num) (by omega)) hp
  rw [hinv, hKs, sub_eq_zero] at hg
  have e : ((k * 2 ^ (K - s) : ℕ) : ZMod p) = (m : ℕ) := by
    rw [← hg]; push_cast at h2 ⊢; field_simp
  have hlt : k * 2 ^ (K - s) < p := by
    refine lt_of_lt_of_le ?_ hp
    calc k * 2 ^ (K - s) < 2 ^ K * 2 ^ (K - s) := by
          exact Nat.mul_lt_mul_of_pos_right hk (by positivity)
      _ ≤ 2 ^ K * 2 ^ K := Nat.mul_le_mul_left _ (Nat.pow_le_pow_right (by norm_num) (by omega))
      _ = 2 ^ (2 * K) := by rw [two_mul, pow_add]
  have e' := cast_inj hlt (by omega) e
  rw [ZMod.val_natCast, Nat.mod_eq_of_lt (by omega)]
  by_contra hge
  push Not at hge
  have : 2 ^ s * 2 ^ (K - s) ≤ k * 2 ^ (K - s) := Nat.mul_le_mul_right _ hge
  rw [mul_comm, ← hKs] at this
  omega

theorem two_pow_ne {p : ℕ} [Fact p.Prime] (hp : p ≠ 2) (s : ℕ) : ((2 ^ s : ℕ) : ZMod p) ≠ 0 := by
  intro h
  rw [ZMod.natCast_eq_zero_iff] at h
  have h2 := (Fact.out : p.Prime).dvd_of_dvd_pow h
  exact hp ((Nat.prime_dvd_prime_iff_eq (Fact.out : p.Prime) Nat.prime_two).1 h2)

/-- **C36**, short checks: whatever the assignment, constraints and lookups force the checked cell
below `2^s`.  `tot` is everything laid out in the circuit. -/
theorem shortRangeCheck_sound {K : ℕ} {cfg : Config C S} (hd : cfg.Distinct) {reg : ℕ}
    {element : ACell C (ZMod p)} (hc : element.cell = ⟨reg, cfg.runningSum, 0⟩) {s n n' : ℕ}
    {ops tot : List (Op C S (ZMod p))}
    (h : shortRangeCheck K cfg reg element s n = some ((), n', ops)) (hs : s ≤ K)
    (hp : 2 ^ (2 * K) ≤ p) (hp5 : 5 < p) (hsub : ∀ op ∈ ops, op ∈ tot)
    (hsel : ∀ q row, .enable q reg row ∈ tot → .enable q reg row ∈ ops)
    (G : Grid C (ZMod p)) (hsat : Sat (gates K cfg) G tot) (hl : SatLookup (lookup K cfg) G tot reg) :
    (G.at element.cell).val < 2 ^ s := by
  have h2 : ((2 ^ s : ℕ) : ZMod p) ≠ 0 := two_pow_ne (by omega) s
  have h4 : (4 : ZMod p) ≠ 0 := by
    have := cast_ne (p := p) (a := 4) (b := 0) (by omega) (by omega) (by omega); exact_mod_cast this
  have h5 : (5 : ZMod p) ≠ 0 := by
    have := cast_ne (p := p) (a := 5) (b := 0) (by omega) (by omega) (by omega); exact_mod_cast this
  have h45 : (4 : ZMod p) ≠ 5 := by
    have := cast_ne (p := p) (a := 4) (b := 5) (by omega) (by omega) (by omega); exact_mod_cast this
  rw [short_run h2] at h
  cases h
  rw [hc]
  change (G reg cfg.runningSum 0).val < 2 ^ s
  -- the base check
  have base : (∀ op ∈ ([.enable cfg.qLookup reg 0, .enable cfg.qLookup reg 1,
      .enable cfg.qBitshift reg 1,
      .advice ⟨reg, cfg.runningSum, 1⟩ (element.value * ((2 ^ (K - s) : ℕ) : ZMod p)),
      .advice ⟨reg, cfg.runningSum, 2⟩ ((2 ^ s : ℕ) : ZMod p)⁻¹,
      .const ⟨reg, cfg.runningSum, 2⟩ ((2 ^ s : ℕ) : ZMod p)⁻¹] : List (Op C S (ZMod p))), op ∈ tot) →
      (∀ q row, .enable q reg row ∈ tot →
        q = cfg.qLookup ∨ q = cfg.qBitshift) → (G reg cfg.runningSum 0).val < 2 ^ s := by
    intro hin hon
    have hq : ∀ q row, q ≠ cfg.qLookup → q ≠ cfg.qBitshift →
        selectors tot reg row q = (0 : ZMod p) := fun q row n1 n2 =>
      selectors_off fun hmem => (hon q row hmem).elim n1 n2
    have ht : ∀ row q4 q5, cfg.variant = .tagged q4 q5 →
        selectors tot reg row q4 = (0 : ZMod p) ∧ selectors tot reg row q5 = (0 : ZMod p) := by
      intro row q4 q5 hv
      obtain ⟨_, hne⟩ := hd.tag q4 q5 hv
      exact ⟨hq _ _ (hne _ (by simp)).1 (hne _ (by simp)).1, hq _ _ (hne _ (by simp)).2 (hne _ (by simp)).2⟩
    have l0 := (lookup_short K cfg (selectors_on (hin (.enable cfg.qLookup reg 0) (by simp)))
      (hq _ _ hd.rl hd.rb) (ht 0) h4 h5).1 (hl 0)
    have l1 := (lookup_short K cfg (selectors_on (hin (.enable cfg.qLookup reg 1) (by simp)))
      (hq _ _ hd.rl hd.rb) (ht 1) h4 h5).1 (hl 1)
    have hg := hsat.gates _ (List.mem_singleton.2 rfl) reg 1
      (hin (.enable cfg.qBitshift reg 1) (by simp)) _ (List.mem_singleton.2 rfl)
    have hk := hsat.const _ _ (hin (.const ⟨reg, cfg.runningSum, 2⟩ ((2 ^ s : ℕ) : ZMod p)⁻¹) (by simp))
    exact shift_range hs hp _ _ _ (by simpa [Grid.query] using l0) (by simpa [Grid.query] using l1) hk h2 (by simpa [Grid.query, Grid.at] using hg)
  unfold shortOps at hsub hsel
  dsimp only at hsub hsel
  cases hv : cfg.variant with
  | base =>
    simp only [hv] at hsub hsel
    refine base hsub fun q row hm => ?_
    have := hsel q row hm
    simp at this
    tauto
  | tagged q4 q5 =>
    simp only [hv] at hsub hsel
    obtain ⟨hne45, hne⟩ := hd.tag q4 q5 hv
    split_ifs at hsub hsel with c4 c5
    · subst c4
      have e5 : selectors tot reg 0 q5 = (0 : ZMod p) := selectors_off fun hm => by
        have := hsel q5 0 hm
        simp at this
        exact this.elim (hne cfg.qLookup (by simp)).2 (Ne.symm hne45)
      have := (lookup_4 K cfg hv (selectors_on (hsub (.enable cfg.qLookup reg 0) (by simp)))
        (selectors_on (hsub (.enable q4 reg 0) (by simp))) e5 h4 h45).1 (hl 0)
      obtain ⟨k, hk, e⟩ := this
      simp only [Grid.query, add_zero] at e
      rw [e, ZMod.val_natCast]
      exact lt_of_le_of_lt (Nat.mod_le _ _) hk
    · subst c5
      have e4 : selectors tot reg 0 q4 = (0 : ZMod p) := selectors_off fun hm => by
        have := hsel q4 0 hm
        simp at this
        exact this.elim (hne cfg.qLookup (by simp)).1 hne45
      have := (lookup_5 K cfg hv (selectors_on (hsub (.enable cfg.qLookup reg 0) (by simp)))
        e4 (selectors_on (hsub (.enable q5 reg 0) (by simp))) h5 h45).1 (hl 0)
      obtain ⟨k, hk, e⟩ := this
      simp only [Grid.query, add_zero] at e
      rw [e, ZMod.val_natCast]
      exact lt_of_le_of_lt (Nat.mod_le _ _) hk
    · refine base hsub fun q row hm => ?_
      have := hsel q row hm
      simp at this
      tauto

/-- ... and the honest assignment of a value below `2^s` meets the constraints and the lookups. -/
theorem shortRangeCheck_complete {K : ℕ} {cfg : Config C S} (hd : cfg.Distinct) {reg : ℕ}
    {element : ACell C (ZMod p)} (hc : element.cell = ⟨reg, cfg.runningSum, 0⟩) {s n n' : ℕ}
    {ops tot : List (Op C S (ZMod p))}
    (h : shortRangeCheck K cfg reg element s n = some ((), n', ops)) (hs : s ≤ K)
    (hp : 2 ^ (2 * K) ≤ p) (hp5 : 5 < p) (hsub : ∀ op ∈ ops, op ∈ tot)
    (hsel : ∀ q row, .enable q reg row ∈ tot → .enable q reg row ∈ ops)
    (G : Grid C (ZMod p)) (hG : Honest G ops) (hel : G.at element.cell = element.value)
    (hlt : element.value.val < 2 ^ s) :
    Sat (gates K cfg) G ops ∧ SatLookup (lookup K cfg) G tot reg := by
  have h2 : ((2 ^ s : ℕ) : ZMod p) ≠ 0 := two_pow_ne (by omega) s
  have h4 : (4 : ZMod p) ≠ 0 := by
    have := cast_ne (p := p) (a := 4) (b := 0) (by omega) (by omega) (by omega); exact_mod_cast this
  have h5 : (5 : ZMod p) ≠ 0 := by
    have := cast_ne (p := p) (a := 5) (b := 0) (by omega) (by omega) (by omega); exact_mod_cast this
  have h45 : (4 : ZMod p) ≠ 5 := by
    have := cast_ne (p := p) (a := 4) (b := 5) (by omega) (by omega) (by omega); exact_mod_cast this
  rw [short_run h2] at h
  cases h
  rw [hc] at hel
  replace hel : G reg cfg.runningSum 0 = element.value := hel
  have hval : ((element.value.val : ℕ) : ZMod p) = element.value := ZMod.natCast_zmod_val _
  have hKs : 2 ^ K = 2 ^ (K - s) * 2 ^ s := by rw [← pow_add]; congr 1; omega
  have base : (Honest G ([.enable cfg.qLookup reg 0, .enable cfg.qLookup reg 1,
      .enable cfg.qBitshift reg 1,
      .advice ⟨reg, cfg.runningSum, 1⟩ (element.value * ((2 ^ (K - s) : ℕ) : ZMod p)),
      .advice ⟨reg, cfg.runningSum, 2⟩ ((2 ^ s : ℕ) : ZMod p)⁻¹,
      .const ⟨reg, cfg.runningSum, 2⟩ ((2 ^ s : ℕ) : ZMod p)⁻¹] : List (Op C S (ZMod p)))) →
      (∀ op ∈ ([.enable cfg.qLookup reg 0, .enable cfg.qLookup reg 1,
      .enable cfg.qBitshift reg 1,
      .advice ⟨reg, cfg.runningSum, 1⟩ (element.value * ((2 ^ (K - s) : ℕ) : ZMod p)),
      .advice ⟨reg, cfg.runningSum, 2⟩ ((2 ^ s : ℕ) : ZMod p)⁻¹,
      .const ⟨reg, cfg.runningSum, 2⟩ ((2 ^ s : ℕ) : ZMod p)⁻¹] : List (Op C S (ZMod p))), op ∈ tot) →
      (∀ q row, .enable q reg row ∈ tot → (q = cfg.qLookup ∧ (row = 0 ∨ row = 1)) ∨
        (q = cfg.qBitshift)) →
      Sat (gates K cfg) G ([.enable cfg.qLookup reg 0, .enable cfg.qLookup reg 1,
      .enable cfg.qBitshift reg 1,
      .advice ⟨reg, cfg.runningSum, 1⟩ (element.value * ((2 ^ (K - s) : ℕ) : ZMod p)),
      .advice ⟨reg, cfg.runningSum, 2⟩ ((2 ^ s : ℕ) : ZMod p)⁻¹,
      .const ⟨reg, cfg.runningSum, 2⟩ ((2 ^ s : ℕ) : ZMod p)⁻¹] : List (Op C S (ZMod p))) ∧
      SatLookup (lookup K cfg) G tot reg := by
    intro hh hin hon
    have a1 : G reg cfg.runningSum 1 = element.value * ((2 ^ (K - s) : ℕ) : ZMod p) :=
      hh.1 ⟨reg, cfg.runningSum, 1⟩ _ (by simp)
    have a2 : G reg cfg.runningSum 2 = ((2 ^ s : ℕ) : ZMod p)⁻¹ :=
      hh.1 ⟨reg, cfg.runningSum, 2⟩ _ (by simp)
    constructor
    · constructor
      · intro g hg reg' row hop
        cases List.mem_singleton.1 hg
        simp only [List.mem_cons, Op.enable.injEq, reduceCtorEq, List.not_mem_nil, or_false] at hop
        have hr : reg' = reg ∧ row = 1 := by
          rcases hop with ⟨h1, _⟩ | ⟨h1, _⟩ | ⟨_, h1, h2⟩
          · exact absurd h1.symm hd.lb
          · exact absurd h1.symm hd.lb
          · exact ⟨h1, h2⟩
        obtain ⟨rfl, rfl⟩ := hr
        simp only [List.mem_singleton, forall_eq, Grid.query]
        norm_num only
        rw [hel, a1, a2, hKs]
        push_cast at h2 ⊢
        field_simp
        ring
      · intro a b hop; simp at hop
      · intro c v hop
        simp at hop
        obtain ⟨rfl, rfl⟩ := hop
        simpa [Grid.at] using a2
      · intro c v hop; simp at hop
    · have hq : ∀ q row, q ≠ cfg.qLookup → q ≠ cfg.qBitshift →
          selectors tot reg row q = (0 : ZMod p) := fun q row n1 n2 =>
        selectors_off fun hmem => (hon q row hmem).elim (fun h => n1 h.1) n2
      have ht : ∀ row q4 q5, cfg.variant = .tagged q4 q5 →
          selectors tot reg row q4 = (0 : ZMod p) ∧ selectors tot reg row q5 = (0 : ZMod p) := by
        intro row q4 q5 hv
        obtain ⟨_, hne⟩ := hd.tag q4 q5 hv
        exact ⟨hq _ _ (hne _ (by simp)).1 (hne _ (by simp)).1, hq _ _ (hne _ (by simp)).2 (hne _ (by simp)).2⟩
      intro row
      by_cases r0 : row = 0
      · subst r0
        refine (lookup_short K cfg (selectors_on (hin (.enable cfg.qLookup reg 0) (by simp)))
          (hq _ _ hd.rl hd.rb) (ht 0) h4 h5).2 ⟨element.value.val, ?_, ?_⟩
        · exact lt_of_lt_of_le hlt (Nat.pow_le_pow_right (by norm_num) hs)
        · simp only [Grid.query, add_zero, hel, hval]
      · by_cases r1 : row = 1
        · subst r1
          refine (lookup_short K cfg (selectors_on (hin (.enable cfg.qLookup reg 1) (by simp)))
            (hq _ _ hd.rl hd.rb) (ht 1) h4 h5).2 ⟨element.value.val * 2 ^ (K - s), ?_, ?_⟩
          · rw [hKs, mul_comm (2 ^ (K - s))]
            exact Nat.mul_lt_mul_of_pos_right hlt (by positivity)
          · simp only [Grid.query, add_zero, a1, Nat.cast_mul, hval]
        · refine lookup_off K cfg (selectors_off fun hm => ?_)
          rcases hon _ _ hm with ⟨_, h | h⟩ | h
          · exact r0 h
          · exact r1 h
          · exact hd.lb h
  unfold shortOps at hsub hsel hG ⊢
  dsimp only at hsub hsel hG ⊢
  cases hv : cfg.variant with
  | base =>
    simp only [hv] at hsub hsel hG ⊢
    refine base hG hsub fun q row hm => ?_
    have := hsel q row hm
    simp at this
    tauto
  | tagged q4 q5 =>
    simp only [hv] at hsub hsel hG ⊢
    obtain ⟨hne45, hne⟩ := hd.tag q4 q5 hv
    split_ifs at hsub hsel hG ⊢ with c4 c5
    · subst c4
      constructor
      · constructor
        · intro g hg reg' row hop
          cases List.mem_singleton.1 hg
          simp at hop
          exact absurd hop (by
            rintro (h | h)
            · exact hd.lb h.1.symm
            · exact (hne cfg.qBitshift (by simp)).1 h.1.symm)
        · intro a b hop; simp at hop
        · intro a b hop; simp at hop
        · intro a b hop; simp at hop
      · intro row
        by_cases r0 : row = 0
        · subst r0
          have e5 : selectors tot reg 0 q5 = (0 : ZMod p) := selectors_off fun hm => by
            have := hsel q5 0 hm
            simp at this
            exact this.elim (hne cfg.qLookup (by simp)).2 (Ne.symm hne45)
          refine (lookup_4 K cfg hv (selectors_on (hsub (.enable cfg.qLookup reg 0) (by simp)))
            (selectors_on (hsub (.enable q4 reg 0) (by simp))) e5 h4 h45).2 ⟨_, hlt, ?_⟩
          simp only [Grid.query, add_zero, hel, hval]
        · refine lookup_off K cfg (selectors_off fun hm => r0 ?_)
          have := hsel _ _ hm
          simp at this
          tauto
    · subst c5
      constructor
      · constructor
        · intro g hg reg' row hop
          cases List.mem_singleton.1 hg
          simp at hop
          exact absurd hop (by
            rintro (h | h)
            · exact hd.lb h.1.symm
            · exact (hne cfg.qBitshift (by simp)).2 h.1.symm)
        · intro a b hop; simp at hop
        · intro a b hop; simp at hop
        · intro a b hop; simp at hop
      · intro row
        by_cases r0 : row = 0
        · subst r0
          have e4 : selectors tot reg 0 q4 = (0 : ZMod p) := selectors_off fun hm => by
            have := hsel q4 0 hm
            simp at this
            exact this.elim (hne cfg.qLookup (by simp)).1 hne45
          refine (lookup_5 K cfg hv (selectors_on (hsub (.enable cfg.qLookup reg 0) (by simp)))
            e4 (selectors_on (hsub (.enable q5 reg 0) (by simp))) h5 h45).2 ⟨_, hlt, ?_⟩
          simp only [Grid.query, add_zero, hel, hval]
        · refine lookup_off K cfg (selectors_off fun hm => r0 ?_)
          have := hsel _ _ hm
          simp at this
          tauto
    · refine base hG hsub fun q row hm => ?_
      have := hsel q row hm
      simp at this
      tauto

/-- **C36**: `copy_short_check` constrains the copied cell to `s` bits, and nothing more. -/
theorem copyShortCheck_spec {K : ℕ} {cfg : Config C S} (hd : cfg.Distinct)
    {element : ACell C (ZMod p)} {s n : ℕ} (hs : s < K)
    (hp : 2 ^ (2 * K) ≤ p) (hp5 : 5 < p) :
    ∃ ops, copyShortCheck K cfg element s n = some ((), n + 1, ops) ∧
      (∀ G, Sat (gates K cfg) G ops → SatLookup (lookup K cfg) G ops n →
        (G.at element.cell).val < 2 ^ s) ∧
      (∀ G, Honest G ops → G.at element.cell = element.value →
        (Sat (gates K cfg) G ops ∧ SatLookup (lookup K cfg) G ops n ↔ element.value.val < 2 ^ s)) := by
  have h2 : ((2 ^ s : ℕ) : ZMod p) ≠ 0 := two_pow_ne (by omega) s
  set el : ACell C (ZMod p) := ⟨⟨n, cfg.runningSum, 0⟩, element.value⟩ with hel
  have hrun := short_run (K := K) (cfg := cfg) (reg := n) (element := el) (n := n + 1) h2
  set pre : List (Op C S (ZMod p)) := [.advice ⟨n, cfg.runningSum, 0⟩ element.value,
    .equal ⟨n, cfg.runningSum, 0⟩ element.cell] with hpre
  have hsub : ∀ op ∈ shortOps K cfg n el s, op ∈ pre ++ shortOps K cfg n el s :=
    fun op h => List.mem_append_right _ h
  have hsel : ∀ q row, .enable q n row ∈ pre ++ shortOps K cfg n el s →
      .enable q n row ∈ shortOps K cfg n el s := by
    intro q row h
    rcases List.mem_append.1 h with h | h
    · simp [hpre] at h
    · exact h
  have sound : ∀ G, Sat (gates K cfg) G (pre ++ shortOps K cfg n el s) →
      SatLookup (lookup K cfg) G (pre ++ shortOps K cfg n el s) n → (G.at element.cell).val < 2 ^ s := by
    intro G hsat hl
    have := shortRangeCheck_sound hd (element := el) rfl hrun hs.le hp hp5 hsub hsel G hsat hl
    rwa [← hsat.equal ⟨n, cfg.runningSum, 0⟩ element.cell (by simp [hpre])]
  refine ⟨pre ++ shortOps K cfg n el s, ?_, sound, fun G hG hv => ⟨fun h => ?_, fun hlt => ?_⟩⟩
  · unfold copyShortCheck
    rw [assert_bind hs]
    unfold assignRegion
    exact bind_of (a := el) (n' := n + 1) (ops₁ := pre) rfl hrun
  · rw [← hv]; exact sound G h.1 h.2
  · have h0 : G.at ⟨n, cfg.runningSum, 0⟩ = element.value := hG.1 _ _ (by simp [hpre])
    obtain ⟨h1, h2⟩ := shortRangeCheck_complete hd (element := el) rfl hrun hs.le hp hp5 hsub hsel G
      hG.right h0 hlt
    refine ⟨Sat.append ⟨?_, ?_, ?_, ?_⟩ h1, h2⟩
    · intro g _ reg row hop; simp [hpre] at hop
    · intro a b hop
      simp [hpre] at hop
      obtain ⟨rfl, rfl⟩ := hop
      rw [h0, hv]
    · intro c v hop; simp [hpre] at hop
    · intro c v hop; simp [hpre] at hop

/-- **C36**: `witness_short_check`. -/
theorem witnessShortCheck_spec {K : ℕ} {cfg : Config C S} (hd : cfg.Distinct)
    {value : ZMod p} {s n : ℕ} (hs : s ≤ K) (hp : 2 ^ (2 * K) ≤ p) (hp5 : 5 < p) :
    ∃ el ops, witnessShortCheck K cfg value s n = some (el, n + 1, ops) ∧ el.value = value ∧
      (∀ G, Sat (gates K cfg) G ops → SatLookup (lookup K cfg) G ops n →
        (G.at el.cell).val < 2 ^ s) ∧
      (∀ G, Honest G ops → G.at el.cell = value ∧
        (Sat (gates K cfg) G ops ∧ SatLookup (lookup K cfg) G ops n ↔ value.val < 2 ^ s)) := by
  have h2 : ((2 ^ s : ℕ) : ZMod p) ≠ 0 := two_pow_ne (by omega) s
  set el : ACell C (ZMod p) := ⟨⟨n, cfg.runningSum, 0⟩, value⟩ with hel
  have hrun := short_run (K := K) (cfg := cfg) (reg := n) (element := el) (n := n + 1) h2
  set pre : List (Op C S (ZMod p)) := [.advice ⟨n, cfg.runningSum, 0⟩ value] with hpre
  have hsub : ∀ op ∈ shortOps K cfg n el s, op ∈ pre ++ shortOps K cfg n el s :=
    fun op h => List.mem_append_right _ h
  have hsel : ∀ q row, .enable q n row ∈ pre ++ shortOps K cfg n el s →
      .enable q n row ∈ shortOps K cfg n el s := by
    intro q row h
    rcases List.mem_append.1 h with h | h
    · simp [hpre] at h
    · exact h
  have sound : ∀ G, Sat (gates K cfg) G (pre ++ shortOps K cfg n el s) →
      SatLookup (lookup K cfg) G (pre ++ shortOps K cfg n el s) n → (G.at el.cell).val < 2 ^ s :=
    fun G hsat hl => shortRangeCheck_sound hd (element := el) rfl hrun hs hp hp5 hsub hsel G hsat hl
  refine ⟨el, pre ++ shortOps K cfg n el s, ?_, rfl, sound, fun G hG => ?_⟩
  · unfold witnessShortCheck
    rw [assert_bind hs]
    unfold assignRegion
    refine bind_of (a := el) (n' := n + 1) (ops₁ := pre) rfl ?_
    have := bind_of (f := fun _ => (pure el : M C S (ZMod p) _)) hrun (rfl : _ = some (_, _, []))
    rwa [List.append_nil] at this
  · have h0 : G.at ⟨n, cfg.runningSum, 0⟩ = value := hG.1 _ _ (by simp [hpre])
    refine ⟨h0, fun h => ?_, fun hlt => ?_⟩
    · have := sound G h.1 h.2
      rwa [show G.at el.cell = value from h0] at this
    · obtain ⟨h1, h2⟩ := shortRangeCheck_complete hd (element := el) rfl hrun hs hp hp5 hsub hsel G
        hG.right h0 hlt
      refine ⟨Sat.append ⟨?_, ?_, ?_, ?_⟩ h1, h2⟩
      · intro g _ reg row hop; simp [hpre] at hop
      · intro a b hop; simp [hpre] at hop
      · intro c v hop; simp [hpre] at hop
      · intro c v hop; simp [hpre] at hop

/-! ## Running sums -/

/-- The operations of the loop. -/
def loopOps {F : Type} [Field F] (cfg : Config C S) (reg : ℕ) (inv : F) :
    ℕ → F → List F → List (Op C S F)
  | _, _, [] => []
  | idx, z, w :: ws => .enable cfg.qLookup reg idx :: .enable cfg.qRunning reg idx ::
      .advice ⟨reg, cfg.runningSum, (idx + 1 : ℕ)⟩ ((z - w) * inv) ::
      loopOps cfg reg inv (idx + 1) ((z - w) * inv) ws

theorem rangeLoop_run {F : Type} [Field F] (cfg : Config C S) (reg : ℕ) (inv : F) (idx : ℕ)
    (z : ACell C F) (ws : List F) (n : ℕ) : rangeLoop cfg reg inv idx z ws n
      = some (sumCells reg cfg.runningSum inv idx z.value ws, n,
        loopOps cfg reg inv idx z.value ws) := by
  induction ws generalizing idx z with
  | nil => rfl
  | cons w ws ih =>
    unfold rangeLoop
    have h2 := bind_of (f := fun rest => (pure (⟨⟨reg, cfg.runningSum, (idx + 1 : ℕ)⟩,
      (z.value - w) * inv⟩ :: rest) : M C S F _))
      (ih (idx + 1) ⟨⟨reg, cfg.runningSum, (idx + 1 : ℕ)⟩, (z.value - w) * inv⟩)
      (rfl : _ = some (_, _, []))
    rw [List.append_nil] at h2
    exact bind_of (a := ()) (n' := n) (ops₁ := [.enable cfg.qLookup reg idx]) rfl
      (bind_of (a := ()) (n' := n) (ops₁ := [.enable cfg.qRunning reg idx]) rfl
      (bind_of (n' := n) (ops₁ := [.advice ⟨reg, cfg.runningSum, (idx + 1 : ℕ)⟩
        ((z.value - w) * inv)]) rfl h2))

theorem mem_loopOps {F : Type} [Field F] (cfg : Config C S) (reg : ℕ) (inv : F) (idx : ℕ)
    (z : F) (ws : List F) (op : Op C S F) : op ∈ loopOps cfg reg inv idx z ws ↔
      (∃ i < ws.length, op = .enable cfg.qLookup reg ((idx + i : ℕ) : ℤ) ∨
        op = .enable cfg.qRunning reg ((idx + i : ℕ) : ℤ)) ∨
      ∃ c ∈ sumCells reg cfg.runningSum inv idx z ws, op = .advice c.cell c.value := by
  induction ws generalizing idx z with
  | nil => simp [loopOps, sumCells]
  | cons w ws ih =>
    simp only [loopOps, sumCells, List.mem_cons, ih, List.length_cons]
    constructor
    · rintro (rfl | rfl | rfl | ⟨i, hi, h⟩ | ⟨c, hc, rfl⟩)
      · exact .inl ⟨0, by omega, .inl rfl⟩
      · exact .inl ⟨0, by omega, .inr rfl⟩
      · exact .inr ⟨_, .inl rfl, rfl⟩
      · refine .inl ⟨i + 1, by omega, ?_⟩
        rwa [show idx + (i + 1) = idx + 1 + i by omega]
      · exact .inr ⟨c, .inr hc, rfl⟩
    · rintro (⟨i, hi, h⟩ | ⟨c, rfl | hc, rfl⟩)
      · cases i with
        | zero => rcases h with rfl | rfl <;> simp
        | succ i =>
          refine .inr (.inr (.inr (.inl ⟨i, by omega, ?_⟩)))
          rwa [show idx + 1 + i = idx + (i + 1) by omega]
      · exact .inr (.inr (.inl rfl))
      · exact .inr (.inr (.inr (.inr ⟨c, hc, rfl⟩)))

/-- The words of `range_check` are the digits of the low bits. -/
theorem words_eq {reprBits capacity K numWords : ℕ} (hK : K ≠ 0) (hK64 : K ≤ 64)
    (hcap : numWords * K ≤ capacity) (hrepr : capacity ≤ reprBits) (x : ZMod p) :
    (chunksExact K ((toLeBits reprBits x).take (numWords * K))).mapM lebs2ip
      = some ((List.range numWords).map fun i => x.val % 2 ^ (K * numWords) / (2 ^ K) ^ i % 2 ^ K) := by
  have hlen : ((toLeBits reprBits x).take (numWords * K)).length = numWords * K := by
    simp [toLeBits]; omega
  unfold chunksExact
  rw [hlen, Nat.mul_div_cancel _ (Nat.pos_of_ne_zero hK), List.mapM_map]
  have : ∀ l : List ℕ, (∀ i ∈ l, i < numWords) →
      l.mapM (fun i => lebs2ip ((((toLeBits reprBits x).take (numWords * K)).drop (i * K)).take K))
      = some (l.map fun i => x.val % 2 ^ (K * numWords) / (2 ^ K) ^ i % 2 ^ K) := by
    intro l hl
    induction l with
    | nil => rfl
    | cons i l ih =>
      have hi := hl i (by simp)
      have hle : i * K + K ≤ numWords * K := by nlinarith
      rw [List.mapM_cons, ih fun j hj => hl j (by simp [hj]), lebs2ip_eq, if_pos (by simp; omega)]
      have e : (((toLeBits reprBits x).take (numWords * K)).drop (i * K)).take K
          = ((toLeBits reprBits x).drop (i * K)).take K := by
        rw [List.drop_take, List.take_take, min_eq_left]
        have := Nat.sub_mul numWords i K
        omega
      rw [e]
      unfold toLeBits
      rw [slice_testBit _ _ _ _ (by omega)]
      have e2 : x.val / 2 ^ (i * K) % 2 ^ K = x.val % 2 ^ (K * numWords) / (2 ^ K) ^ i % 2 ^ K := by
        rw [← pow_mul, mul_comm K i]
        have h1 : 2 ^ (K * numWords) = 2 ^ (i * K) * 2 ^ (K * numWords - i * K) := by
          rw [← pow_add]; congr 1
          have : i * K ≤ K * numWords := by nlinarith
          omega
        rw [h1, Nat.mod_mul_right_div_self, Nat.mod_mod_of_dvd]
        refine pow_dvd_pow _ ?_
        have : numWords * K = K * numWords := mul_comm _ _
        omega
      rw [e2]
      rfl
  exact this (List.range numWords) fun i hi => List.mem_range.1 hi

/-- The operations of `range_check`. -/
def rangeOps (K : ℕ) (cfg : Config C S) (reg : ℕ) (element : ACell C (ZMod p)) (numWords : ℕ)
    (strict : Bool) : List (Op C S (ZMod p)) :=
  loopOps cfg reg ((2 ^ K : ℕ) : ZMod p)⁻¹ 0 element.value
    (digits K numWords (K * numWords) element.value) ++
  if strict then [.const ⟨reg, cfg.runningSum, numWords⟩ 0] else []

/-- The cells of `range_check`. -/
def rangeCells (K : ℕ) (cfg : Config C S) (reg : ℕ) (element : ACell C (ZMod p)) (numWords : ℕ) :
    List (ACell C (ZMod p)) :=
  element :: sumCells reg cfg.runningSum ((2 ^ K : ℕ) : ZMod p)⁻¹ 0 element.value
    (digits K numWords (K * numWords) element.value)

theorem rangeCheck_run {reprBits capacity K numWords : ℕ} {cfg : Config C S} {reg : ℕ}
    {element : ACell C (ZMod p)} {strict : Bool} {n : ℕ} (hK : K ≠ 0) (hK64 : K ≤ 64)
    (hcap : numWords * K ≤ capacity) (hrepr : capacity ≤ reprBits) (hp : p ≠ 2)
    (hc : element.cell = ⟨reg, cfg.runningSum, 0⟩) :
    rangeCheck reprBits capacity K cfg reg element numWords strict n
      = some (rangeCells K cfg reg element numWords, n, rangeOps K cfg reg element numWords strict) := by
  unfold rangeCheck
  rw [assert_bind hcap, assert_bind hK, words_eq hK hK64 hcap hrepr]
  refine bind_of (a := ((List.range numWords).map fun i =>
    element.value.val % 2 ^ (K * numWords) / (2 ^ K) ^ i % 2 ^ K)) (n' := n) (ops₁ := []) rfl ?_
  rw [assert_bind (by simp), assert_bind (two_pow_ne hp K)]
  have hd : ((List.range numWords).map fun i =>
      element.value.val % 2 ^ (K * numWords) / (2 ^ K) ^ i % 2 ^ K).map (fun (w : ℕ) => (w : ZMod p))
      = digits K numWords (K * numWords) element.value := by
    rw [digits, List.map_map]; rfl
  rw [hd]
  have h := rangeLoop_run cfg reg ((2 ^ K : ℕ) : ZMod p)⁻¹ 0 element
    (digits K numWords (K * numWords) element.value) n
  have hlast := zs_last (inv := ((2 ^ K : ℕ) : ZMod p)⁻¹) (offset := 0) hc
    (digits K numWords (K * numWords) element.value) (by simp)
  simp only [digits, List.length_map, List.length_range, zero_add] at hlast
  refine bind_of h ?_
  cases strict
  · rfl
  · simp only [if_true]
    refine bind_of (a := ()) (n' := n) (ops₁ := [.const _ 0]) ?_ (ops₂ := []) rfl
    unfold constrainConstant emit
    simp only [digits, hlast]

/-- **C36**, running sums: whatever the assignment, if constraints and lookups hold, consecutive
sums differ by a `K`-bit word, the first is the sum of the words plus `2^(K W) z_W`, and in strict
mode it is an integer below `2^(K W)`. -/
theorem rangeCheck_sound {reprBits capacity K numWords : ℕ} {cfg : Config C S} (hd : cfg.Distinct)
    {reg : ℕ} {element : ACell C (ZMod p)} (hc : element.cell = ⟨reg, cfg.runningSum, 0⟩)
    {strict : Bool} {n n' : ℕ} {zs : List (ACell C (ZMod p))} {ops tot : List (Op C S (ZMod p))}
    (h : rangeCheck reprBits capacity K cfg reg element numWords strict n = some (zs, n', ops))
    (hK : K ≠ 0) (hK64 : K ≤ 64) (hcap : numWords * K ≤ capacity) (hrepr : capacity ≤ reprBits)
    (hp5 : 5 < p) (hsub : ∀ op ∈ ops, op ∈ tot)
    (hsel : ∀ q row, .enable q reg row ∈ tot → .enable q reg row ∈ ops)
    (G : Grid C (ZMod p)) (hsat : Sat (gates K cfg) G tot) (hl : SatLookup (lookup K cfg) G tot reg) :
    ∃ z : ℕ → ZMod p, zs.map (fun c => G.at c.cell) = (List.range (numWords + 1)).map z ∧
      z 0 = G.at element.cell ∧
      (∀ i < numWords, ∃ k < 2 ^ K, z i = (k : ℕ) + ((2 ^ K : ℕ) : ZMod p) * z (i + 1)) ∧
      (∃ m < 2 ^ (K * numWords), z 0 = (m : ℕ) + ((2 ^ (K * numWords) : ℕ) : ZMod p) * z numWords) ∧
      (strict = true → ∃ m < 2 ^ (K * numWords), G.at element.cell = (m : ℕ)) := by
  have h4 : (4 : ZMod p) ≠ 0 := by
    have := cast_ne (p := p) (a := 4) (b := 0) (by omega) (by omega) (by omega); exact_mod_cast this
  have h5 : (5 : ZMod p) ≠ 0 := by
    have := cast_ne (p := p) (a := 5) (b := 0) (by omega) (by omega) (by omega); exact_mod_cast this
  rw [rangeCheck_run hK hK64 hcap hrepr (by omega) hc] at h
  cases h
  have hdl : (digits K numWords (K * numWords) element.value).length = numWords := by simp [digits]
  refine ⟨fun i => G reg cfg.runningSum (i : ℤ), ?_, ?_, ?_⟩
  · refine List.ext_getElem (by simp [rangeCells, sumCells_length, hdl]) fun i h1 h2 => ?_
    simp only [List.getElem_map, List.getElem_range, rangeCells]
    rw [zs_cell (offset := 0) hc _ i (by simp at h2; omega), zero_add]
    rfl
  · rw [hc]; rfl
  have honly : ∀ q row, .enable q reg row ∈ tot → q = cfg.qLookup ∨ q = cfg.qRunning := by
    intro q row hm
    have := hsel q row hm
    unfold rangeOps at this
    rcases List.mem_append.1 this with h | h
    · rw [mem_loopOps] at h
      rcases h with ⟨i, _, h | h⟩ | ⟨c, _, h⟩ <;> cases h
      · exact .inl rfl
      · exact .inr rfl
    · cases strict <;> simp at h
  have hstep : ∀ i < numWords, ∃ k < 2 ^ K, G reg cfg.runningSum (i : ℤ)
      = (k : ℕ) + ((2 ^ K : ℕ) : ZMod p) * G reg cfg.runningSum ((i + 1 : ℕ) : ℤ) := by
    intro i hi
    have ht : ∀ q4 q5, cfg.variant = .tagged q4 q5 →
        selectors tot reg (i : ℤ) q4 = (0 : ZMod p) ∧ selectors tot reg (i : ℤ) q5 = (0 : ZMod p) := by
      intro q4 q5 hv
      obtain ⟨_, hne⟩ := hd.tag q4 q5 hv
      exact ⟨selectors_off fun hm => (honly _ _ hm).elim (hne _ (by simp)).1 (hne _ (by simp)).1,
        selectors_off fun hm => (honly _ _ hm).elim (hne _ (by simp)).2 (hne _ (by simp)).2⟩
    have m1 : .enable cfg.qLookup reg (i : ℤ) ∈ tot := hsub _ (List.mem_append_left _
      ((mem_loopOps _ _ _ _ _ _ _).2 (.inl ⟨i, by omega, .inl (by simp)⟩)))
    have m2 : .enable cfg.qRunning reg (i : ℤ) ∈ tot := hsub _ (List.mem_append_left _
      ((mem_loopOps _ _ _ _ _ _ _).2 (.inl ⟨i, by omega, .inr (by simp)⟩)))
    obtain ⟨k, hk, e⟩ := (lookup_running K cfg (selectors_on m1) (selectors_on m2) ht h4 h5).1 (hl i)
    refine ⟨k, hk, ?_⟩
    simp only [Grid.query, add_zero] at e
    push_cast at e ⊢
    rw [← e]; ring
  have hchain : ∃ m < 2 ^ (K * numWords), G reg cfg.runningSum ((0 : ℕ) : ℤ)
      = (m : ℕ) + ((2 ^ (K * numWords) : ℕ) : ZMod p) * G reg cfg.runningSum (numWords : ℤ) := by
    obtain ⟨m, hm, e⟩ := chain (2 ^ K) (fun i => G reg cfg.runningSum (i : ℤ)) numWords hstep
    refine ⟨m, by rwa [← pow_mul] at hm, ?_⟩
    rw [e]; push_cast; rw [pow_mul]
  refine ⟨hstep, hchain, fun hst => ?_⟩
  subst hst
  obtain ⟨m, hm, e⟩ := hchain
  refine ⟨m, hm, ?_⟩
  have hlast : G reg cfg.runningSum (numWords : ℤ) = 0 :=
    hsat.const ⟨reg, cfg.runningSum, numWords⟩ 0 (hsub _ (List.mem_append_right _ (by simp)))
  rw [hlast, mul_zero, add_zero] at e
  rw [hc]
  exact e

/-- **C36**, running sums: the honest assignment meets constraints and lookups, in strict mode
exactly when the value has at most `K W` bits. -/
theorem rangeCheck_complete {reprBits capacity K numWords : ℕ} {cfg : Config C S} (hd : cfg.Distinct)
    {reg : ℕ} {element : ACell C (ZMod p)} (hc : element.cell = ⟨reg, cfg.runningSum, 0⟩)
    {strict : Bool} {n n' : ℕ} {zs : List (ACell C (ZMod p))} {ops tot : List (Op C S (ZMod p))}
    (h : rangeCheck reprBits capacity K cfg reg element numWords strict n = some (zs, n', ops))
    (hK : K ≠ 0) (hK64 : K ≤ 64) (hcap : numWords * K ≤ capacity) (hrepr : capacity ≤ reprBits)
    (hp5 : 5 < p) (hsub : ∀ op ∈ ops, op ∈ tot)
    (hsel : ∀ q row, .enable q reg row ∈ tot → .enable q reg row ∈ ops)
    (G : Grid C (ZMod p)) (hG : Honest G ops) (hel : G.at element.cell = element.value) :
    SatLookup (lookup K cfg) G tot reg ∧
    (Sat (gates K cfg) G ops ↔ (strict = true → element.value.val < 2 ^ (K * numWords))) ∧
    (∀ c ∈ zs, G.at c.cell = c.value) ∧ zs.length = numWords + 1 := by
  have h4 : (4 : ZMod p) ≠ 0 := by
    have := cast_ne (p := p) (a := 4) (b := 0) (by omega) (by omega) (by omega); exact_mod_cast this
  have h5 : (5 : ZMod p) ≠ 0 := by
    have := cast_ne (p := p) (a := 5) (b := 0) (by omega) (by omega) (by omega); exact_mod_cast this
  rw [rangeCheck_run hK hK64 hcap hrepr (by omega) hc] at h
  cases h
  have hdl : (digits K numWords (K * numWords) element.value).length = numWords := by simp [digits]
  have hon : ∀ c ∈ rangeCells K cfg reg element numWords, G.at c.cell = c.value := by
    intro c hcm
    rcases List.mem_cons.1 hcm with rfl | hcm
    · exact hel
    · exact hG.1 _ _ (List.mem_append_left _ ((mem_loopOps _ _ _ _ _ _ _).2 (.inr ⟨c, hcm, rfl⟩)))
  obtain ⟨hstep, hlast⟩ := honest_sums (two_pow_ne (by omega) K) le_rfl hc hon
  simp only [zero_add] at hstep hlast
  have hen : ∀ q row, .enable q reg row ∈ tot → ∃ i < numWords, row = ((i : ℕ) : ℤ) ∧
      (q = cfg.qLookup ∨ q = cfg.qRunning) := by
    intro q row hm
    have := hsel q row hm
    unfold rangeOps at this
    rcases List.mem_append.1 this with h | h
    · rw [mem_loopOps, hdl] at h
      rcases h with ⟨i, hi, h | h⟩ | ⟨c, _, h⟩ <;> cases h
      · exact ⟨i, hi, by simp, .inl rfl⟩
      · exact ⟨i, hi, by simp, .inr rfl⟩
    · cases strict <;> simp at h
  refine ⟨fun row => ?_, ?_, hon, by simp [rangeCells, sumCells_length, hdl]⟩
  · by_cases hr : ∃ i < numWords, row = ((i : ℕ) : ℤ)
    · obtain ⟨i, hi, rfl⟩ := hr
      have ht : ∀ q4 q5, cfg.variant = .tagged q4 q5 →
          selectors tot reg (i : ℤ) q4 = (0 : ZMod p) ∧ selectors tot reg (i : ℤ) q5 = (0 : ZMod p) := by
        intro q4 q5 hv
        obtain ⟨_, hne⟩ := hd.tag q4 q5 hv
        constructor <;> refine selectors_off fun hm => ?_
        · obtain ⟨_, _, _, h⟩ := hen _ _ hm
          exact h.elim (hne _ (by simp)).1 (hne _ (by simp)).1
        · obtain ⟨_, _, _, h⟩ := hen _ _ hm
          exact h.elim (hne _ (by simp)).2 (hne _ (by simp)).2
      have m1 : .enable cfg.qLookup reg (i : ℤ) ∈ tot := hsub _ (List.mem_append_left _
        ((mem_loopOps _ _ _ _ _ _ _).2 (.inl ⟨i, by omega, .inl (by simp)⟩)))
      have m2 : .enable cfg.qRunning reg (i : ℤ) ∈ tot := hsub _ (List.mem_append_left _
        ((mem_loopOps _ _ _ _ _ _ _).2 (.inl ⟨i, by omega, .inr (by simp)⟩)))
      refine (lookup_running K cfg (selectors_on m1) (selectors_on m2) ht h4 h5).2
        ⟨element.value.val % 2 ^ (K * numWords) / (2 ^ K) ^ i % 2 ^ K,
          Nat.mod_lt _ (by positivity), ?_⟩
      · simp only [Grid.query, add_zero]
        rw [hstep i hi]; push_cast; ring
    · refine lookup_off K cfg (selectors_off fun hm => hr ?_)
      obtain ⟨i, hi, h, _⟩ := hen _ _ hm
      exact ⟨i, hi, h⟩
  · constructor
    · intro hs hst
      subst hst
      exact hlast.1 (hs.const ⟨reg, cfg.runningSum, numWords⟩ 0 (List.mem_append_right _ (by simp)))
    · intro hst
      constructor
      · intro g hg reg' row hop
        cases List.mem_singleton.1 hg
        exfalso
        unfold rangeOps at hop
        rcases List.mem_append.1 hop with h | h
        · rw [mem_loopOps] at h
          rcases h with ⟨i, _, h | h⟩ | ⟨c, _, h⟩
          · exact hd.lb (Op.enable.inj h).1.symm
          · exact hd.rb (Op.enable.inj h).1.symm
          · cases h
        · cases strict <;> simp at h
      · intro a b hop
        unfold rangeOps at hop
        rcases List.mem_append.1 hop with h | h
        · rw [mem_loopOps] at h
          rcases h with ⟨i, _, h | h⟩ | ⟨c, _, h⟩ <;> cases h
        · cases strict <;> simp at h
      · intro c v hop
        unfold rangeOps at hop
        rcases List.mem_append.1 hop with h | h
        · rw [mem_loopOps] at h
          rcases h with ⟨i, _, h | h⟩ | ⟨c, _, h⟩ <;> cases h
        · cases strict
          · simp at h
          · simp at h
            obtain ⟨rfl, rfl⟩ := h
            exact hlast.2 (hst rfl)
      · intro a b hop
        unfold rangeOps at hop
        rcases List.mem_append.1 hop with h | h
        · rw [mem_loopOps] at h
          rcases h with ⟨i, _, h | h⟩ | ⟨c, _, h⟩ <;> cases h
        · cases strict <;> simp at h

/-- **C36**: `copy_check` in strict mode constrains the copied cell to `K W` bits, and nothing
more. -/
theorem copyCheck_spec {reprBits capacity K numWords : ℕ} {cfg : Config C S} (hd : cfg.Distinct)
    {element : ACell C (ZMod p)} {n : ℕ} (hK : K ≠ 0) (hK64 : K ≤ 64)
    (hcap : numWords * K ≤ capacity) (hrepr : capacity ≤ reprBits) (hp5 : 5 < p) :
    ∃ zs ops, copyCheck reprBits capacity K cfg element numWords true n = some (zs, n + 1, ops) ∧
      (∀ G, Sat (gates K cfg) G ops → SatLookup (lookup K cfg) G ops n →
        ∃ m < 2 ^ (K * numWords), G.at element.cell = (m : ℕ)) ∧
      (∀ G, Honest G ops → G.at element.cell = element.value →
        (Sat (gates K cfg) G ops ∧ SatLookup (lookup K cfg) G ops n ↔
          element.value.val < 2 ^ (K * numWords))) := by
  set el : ACell C (ZMod p) := ⟨⟨n, cfg.runningSum, 0⟩, element.value⟩ with hel
  have hrun := rangeCheck_run (cfg := cfg) (element := el) (strict := true) (n := n + 1)
    hK hK64 hcap hrepr (show p ≠ 2 by omega) rfl
  set pre : List (Op C S (ZMod p)) := [.advice ⟨n, cfg.runningSum, 0⟩ element.value,
    .equal ⟨n, cfg.runningSum, 0⟩ element.cell] with hpre
  have hsub : ∀ op ∈ rangeOps K cfg n el numWords true,
      op ∈ pre ++ rangeOps K cfg n el numWords true := fun op h => List.mem_append_right _ h
  have hsel : ∀ q row, .enable q n row ∈ pre ++ rangeOps K cfg n el numWords true →
      .enable q n row ∈ rangeOps K cfg n el numWords true := by
    intro q row h
    rcases List.mem_append.1 h with h | h
    · simp [hpre] at h
    · exact h
  refine ⟨rangeCells K cfg n el numWords, pre ++ rangeOps K cfg n el numWords true, ?_, ?_, ?_⟩
  · unfold copyCheck assignRegion
    exact bind_of (a := el) (n' := n + 1) (ops₁ := pre) rfl hrun
  · intro G hsat hl
    obtain ⟨z, -, -, -, -, hst⟩ := rangeCheck_sound hd (element := el) rfl hrun hK hK64 hcap hrepr
      hp5 hsub hsel G hsat hl
    rw [← hsat.equal ⟨n, cfg.runningSum, 0⟩ element.cell (by simp [hpre])]
    exact hst rfl
  · intro G hG hv
    have h0 : G.at ⟨n, cfg.runningSum, 0⟩ = element.value := hG.1 _ _ (by simp [hpre])
    obtain ⟨h1, h2, -, -⟩ := rangeCheck_complete hd (element := el) rfl hrun hK hK64 hcap hrepr
      hp5 hsub hsel G hG.right h0
    constructor
    · intro h
      exact h2.1 h.1.right rfl
    · intro hlt
      refine ⟨Sat.append ⟨?_, ?_, ?_, ?_⟩ (h2.2 fun _ => hlt), h1⟩
      · intro g _ reg row hop; simp [hpre] at hop
      · intro a b hop
        simp [hpre] at hop
        obtain ⟨rfl, rfl⟩ := hop
        rw [h0, hv]
      · intro c v hop; simp [hpre] at hop
      · intro c v hop; simp [hpre] at hop

/-- The operations of `copy_check`. -/
def copyCheckOps (K : ℕ) (cfg : Config C S) (reg : ℕ) (element : ACell C (ZMod p)) (numWords : ℕ)
    (strict : Bool) : List (Op C S (ZMod p)) :=
  [.advice ⟨reg, cfg.runningSum, 0⟩ element.value, .equal ⟨reg, cfg.runningSum, 0⟩ element.cell] ++
  rangeOps K cfg reg ⟨⟨reg, cfg.runningSum, 0⟩, element.value⟩ numWords strict

/-- The cells of `copy_check`. -/
def copyCheckCells (K : ℕ) (cfg : Config C S) (reg : ℕ) (element : ACell C (ZMod p))
    (numWords : ℕ) : List (ACell C (ZMod p)) :=
  rangeCells K cfg reg ⟨⟨reg, cfg.runningSum, 0⟩, element.value⟩ numWords

theorem copyCheck_run {reprBits capacity K numWords : ℕ} {cfg : Config C S}
    {element : ACell C (ZMod p)} {strict : Bool} {n : ℕ} (hK : K ≠ 0) (hK64 : K ≤ 64)
    (hcap : numWords * K ≤ capacity) (hrepr : capacity ≤ reprBits) (hp : p ≠ 2) :
    copyCheck reprBits capacity K cfg element numWords strict n
      = some (copyCheckCells K cfg n element numWords, n + 1,
          copyCheckOps K cfg n element numWords strict) := by
  unfold copyCheck assignRegion
  exact bind_of (a := ⟨⟨n, cfg.runningSum, 0⟩, element.value⟩) (n' := n + 1)
    (ops₁ := [.advice ⟨n, cfg.runningSum, 0⟩ element.value,
      .equal ⟨n, cfg.runningSum, 0⟩ element.cell]) rfl
    (rangeCheck_run hK hK64 hcap hrepr hp rfl)

/-- The last running sum of `copy_check`. -/
theorem copyCheckCells_last (K : ℕ) (cfg : Config C S) (reg : ℕ) (element : ACell C (ZMod p))
    (numWords : ℕ) :
    ∃ h : numWords < (copyCheckCells K cfg reg element numWords).length,
      (copyCheckCells K cfg reg element numWords).length = numWords + 1 ∧
      ((copyCheckCells K cfg reg element numWords)[numWords]).cell
        = ⟨reg, cfg.runningSum, numWords⟩ := by
  have hlen : (copyCheckCells K cfg reg element numWords).length = numWords + 1 := by
    simp [copyCheckCells, rangeCells, sumCells_length, digits]
  refine ⟨by omega, hlen, ?_⟩
  have := zs_cell (reg := reg) (col := cfg.runningSum) (offset := 0)
    (inv := ((2 ^ K : ℕ) : ZMod p)⁻¹)
    (z₀ := (⟨⟨reg, cfg.runningSum, 0⟩, element.value⟩ : ACell C (ZMod p))) rfl
    (digits K numWords (K * numWords) element.value) numWords (by simp [digits])
  rw [zero_add] at this
  exact this

theorem copyCheckOps_enables {K : ℕ} {cfg : Config C S} {reg : ℕ} {element : ACell C (ZMod p)}
    {numWords : ℕ} {strict : Bool} {q : S} {r : ℕ} {row : ℤ}
    (h : .enable q r row ∈ copyCheckOps K cfg reg element numWords strict) :
    (q = cfg.qLookup ∨ q = cfg.qRunning) ∧ r = reg := by
  unfold copyCheckOps rangeOps at h
  rcases List.mem_append.1 h with h | h
  · simp at h
  rcases List.mem_append.1 h with h | h
  · rw [mem_loopOps] at h
    rcases h with ⟨i, hi, h | h⟩ | ⟨c, _, h⟩ <;> cases h
    · exact ⟨.inl rfl, rfl⟩
    · exact ⟨.inr rfl, rfl⟩
  · cases strict <;> simp at h

/-- **C36**: `copy_check` without the strict mode splits off the low `K W` bits: whatever the
assignment, the copied cell is `m + 2^(K W) z` with `m` of `K W` bits and `z` the last running sum,
and every honest assignment is accepted. -/
theorem copyCheck_loose {K numWords : ℕ} {cfg : Config C S} (hd : cfg.Distinct)
    {element : ACell C (ZMod p)} {n : ℕ} (hK : K ≠ 0) (hK64 : K ≤ 64) (hp5 : 5 < p)
    {tot : List (Op C S (ZMod p))}
    (hsub : ∀ op ∈ copyCheckOps K cfg n element numWords false, op ∈ tot)
    (hsel : ∀ q row, .enable q n row ∈ tot →
      .enable q n row ∈ copyCheckOps K cfg n element numWords false) :
    (∀ G, Sat (gates K cfg) G tot → SatLookup (lookup K cfg) G tot n →
      ∃ m < 2 ^ (K * numWords), G.at element.cell
        = (m : ℕ) + ((2 ^ (K * numWords) : ℕ) : ZMod p) * G n cfg.runningSum numWords) ∧
    (∀ G, Honest G (copyCheckOps K cfg n element numWords false) →
      G.at element.cell = element.value →
      Sat (gates K cfg) G (copyCheckOps K cfg n element numWords false) ∧
      SatLookup (lookup K cfg) G tot n ∧
      (∀ c ∈ copyCheckCells K cfg n element numWords, G.at c.cell = c.value) ∧
      (G n cfg.runningSum numWords = 0 ↔ element.value.val < 2 ^ (K * numWords))) := by
  set el : ACell C (ZMod p) := ⟨⟨n, cfg.runningSum, 0⟩, element.value⟩ with hel
  have hrun := rangeCheck_run (reprBits := numWords * K) (capacity := numWords * K) (K := K)
    (cfg := cfg) (element := el) (strict := false) (n := n + 1)
    hK hK64 le_rfl le_rfl (show p ≠ 2 by omega) rfl
  have hsub' : ∀ op ∈ rangeOps K cfg n el numWords false, op ∈ tot :=
    fun op h => hsub op (List.mem_append_right _ h)
  have hsel' : ∀ q row, .enable q n row ∈ tot →
      .enable q n row ∈ rangeOps K cfg n el numWords false := by
    intro q row h
    rcases List.mem_append.1 (hsel q row h) with h | h
    · simp at h
    · exact h
  constructor
  · intro G hsat hl
    obtain ⟨z, hz, hz0, -, ⟨m, hm, e⟩, -⟩ := rangeCheck_sound hd (element := el) rfl hrun hK hK64
      le_rfl le_rfl hp5 hsub' hsel' G hsat hl
    refine ⟨m, hm, ?_⟩
    rw [← hsat.equal ⟨n, cfg.runningSum, 0⟩ element.cell (hsub _ (by simp [copyCheckOps]))]
    have hzW : z numWords = G n cfg.runningSum numWords := by
      obtain ⟨h1, h2, h3⟩ := copyCheckCells_last K cfg n element numWords
      have := congrArg (fun l => l[numWords]?) hz
      simp only [List.getElem?_map] at this
      rw [List.getElem?_range (by omega)] at this
      have h4 : (rangeCells K cfg n el numWords)[numWords]?
        = some ((copyCheckCells K cfg n element numWords)[numWords]) :=
        List.getElem?_eq_getElem h1
      rw [h4] at this
      simp only [Option.map_some, Option.some.injEq] at this
      rw [← this, h3]
      rfl
    rw [← hzW, ← e, hz0]
  · intro G hG hv
    have hG' : Honest G (rangeOps K cfg n el numWords false) := hG.right
    have h0 : G.at ⟨n, cfg.runningSum, 0⟩ = element.value := hG.1 _ _ (by simp [copyCheckOps])
    obtain ⟨h1, h2, h3, -⟩ := rangeCheck_complete hd (element := el) rfl hrun hK hK64 le_rfl le_rfl
      hp5 hsub' hsel' G hG' h0
    refine ⟨Sat.append ⟨?_, ?_, ?_, ?_⟩ (h2.2 (by simp)), h1, h3, ?_⟩
    · intro g _ reg row hop; simp at hop
    · intro a b hop
      simp at hop
      obtain ⟨rfl, rfl⟩ := hop
      rw [h0, hv]
    · intro c v hop; simp at hop
    · intro c v hop; simp at hop
    · have := (honest_sums (W := numWords) (bits := K * numWords) (offset := 0)
        (two_pow_ne (by omega) K) le_rfl (z₀ := el) rfl (G := G) h3).2
      rw [zero_add] at this
      exact this

/-! ## Example -/

/-- A tagged configuration. -/
def exCfg : Config Unit (Fin 5) := ⟨0, 1, 2, (), .tagged 3 4⟩

theorem exCfg_distinct : exCfg.Distinct := by
  constructor
  · decide
  · decide
  · decide
  · intro q4 q5 h
    cases h
    decide

instance : Fact (Nat.Prime 12289) := ⟨by norm_num⟩

/-- Five bits with the tagged variant and `K = 6`, in the field of order 12289 (a prime above
`2^12`). -/
example : ∃ ops : List (Op Unit (Fin 5) (ZMod 12289)),
    copyShortCheck 6 exCfg (⟨⟨0, (), 0⟩, ((31 : ℕ) : ZMod 12289)⟩ : ACell Unit (ZMod 12289)) 5 3
      = some ((), 4, ops) ∧
    (∀ G, Honest G ops → G.at ⟨0, (), 0⟩ = ((31 : ℕ) : ZMod 12289) →
      Sat (gates 6 exCfg) G ops ∧ SatLookup (lookup 6 exCfg) G ops 3) := by
  obtain ⟨ops, h, -, hc⟩ := copyShortCheck_spec (K := 6) exCfg_distinct
    (element := (⟨⟨0, (), 0⟩, ((31 : ℕ) : ZMod 12289)⟩ : ACell Unit (ZMod 12289))) (s := 5) (n := 3)
    (by norm_num) (by norm_num) (by norm_num)
  exact ⟨ops, h, fun G hG hv => (hc G hG hv).2 (by rw [ZMod.val_natCast]; norm_num)⟩

end Verif.LookupRange
