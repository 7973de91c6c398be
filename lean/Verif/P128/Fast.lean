import Verif.Grain.Props

/-!
# The Grain generator on numbers (C78)

The state of the generator as one number of 80 bits, so that the kernel can compute with it, and
the proof that `Grain` computes the same.
-/

namespace Verif.P128

open Verif.Grain

/-- Two steps of the LFSR. -/
def adv2 (s : ℕ) : ℕ :=
  (s >>> 2) ||| ((((s >>> 62) ^^^ (s >>> 51) ^^^ (s >>> 38) ^^^ (s >>> 23) ^^^ (s >>> 13) ^^^ s) &&& 3)
    <<< 78)

/-- `n` bits of the shrunk stream, added to `acc`. -/
def fastTake : ℕ → ℕ → ℕ → ℕ → Option (ℕ × ℕ)
  | _, 0, acc, s => some (acc, s)
  | 0, _ + 1, _, _ => none
  | fuel + 1, n + 1, acc, s =>
    match adv2 s with
    | 0 => none
    | t + 1 =>
      match s &&& 1 with
      | 0 => fastTake fuel (n + 1) acc (t + 1)
      | _ =>
        match 2 * acc + ((s >>> 1) &&& 1) with
        | 0 => fastTake fuel n 0 (t + 1)
        | a + 1 => fastTake fuel n (a + 1) (t + 1)

/-- An element below `lo`; gives up if there is a number from `lo` to `hi` before it. -/
def fastElement (lo hi n bitFuel : ℕ) : ℕ → ℕ → Option (ℕ × ℕ)
  | 0, _ => none
  | fuel + 1, s =>
    match fastTake bitFuel n 0 s with
    | none => none
    | some (v, s) =>
      if v < lo then some (v, s) else if hi ≤ v then fastElement lo hi n bitFuel fuel s else none

/-- Does the generator give the elements of the list?  The state afterwards. -/
def fastElements (lo hi n bitFuel fuel : ℕ) : List ℕ → ℕ → Option ℕ
  | [], s => some s
  | v :: l, s =>
    match fastElement lo hi n bitFuel fuel s with
    | none => none
    | some (w, s) => match s with
      | 0 => none
      | s + 1 => if v = w then fastElements lo hi n bitFuel fuel l (s + 1) else none

/-- Does the generator give the numbers of the list, without rejection? -/
def fastNumbers (n bitFuel : ℕ) : List ℕ → ℕ → Bool
  | [], _ => true
  | v :: l, s =>
    match fastTake bitFuel n 0 s with
    | none => false
    | some (w, s) => match s with
      | 0 => false
      | s + 1 => if v = w then fastNumbers n bitFuel l (s + 1) else false

/-! ### The number and the state -/

/-- The number holds the 80 bits of the sequence from `pos` on. -/
structure Win (b : ℕ → Bool) (s pos : ℕ) : Prop where
  lt : s < 2 ^ 80
  bit : ∀ i < 80, s.testBit i = b (pos + i)

/-- The number holds the bits that the generator will use. -/
def Rel (b : ℕ → Bool) (g : Grain) (s : ℕ) : Prop := ∃ pos, Inv b g pos ∧ Win b s pos

variable {init : Fin 80 → Bool} {b : ℕ → Bool}

theorem Win.adv2 (hb : IsLfsr init b) {s pos : ℕ} (h : Win b s pos) : Win b (adv2 s) (pos + 2) := by
  have h3 : ∀ j, Nat.testBit 3 j = decide (j < 2) := fun j => by
    rw [show 3 = 2 ^ 2 - 1 by rfl, Nat.testBit_two_pow_sub_one]
  have hbit : ∀ i, (P128.adv2 s).testBit i
      = if i < 78 then s.testBit (i + 2) else if i < 80 then b (pos + 2 + i) else false := by
    intro i
    simp only [P128.adv2, Nat.testBit_or, Nat.testBit_shiftRight, Nat.testBit_shiftLeft,
      Nat.testBit_and, Nat.testBit_xor, h3]
    have hz : ∀ j ≥ 80, s.testBit j = false := fun j hj =>
      Nat.testBit_lt_two_pow (h.lt.trans_le (Nat.pow_le_pow_right (by decide) hj))
    by_cases h1 : i < 78
    · rw [if_pos h1]
      simp [show ¬ 78 ≤ i by omega, Nat.add_comm]
    · rw [if_neg h1, hz (2 + i) (by omega)]
      by_cases h2 : i < 80
      · rw [if_pos h2]
        obtain ⟨k, rfl⟩ : ∃ k, i = 78 + k := ⟨i - 78, by omega⟩
        have hk : k < 2 := by omega
        have hs := hb.step (pos + k)
        simp only [show 78 + k - 78 = k by omega, hk, decide_true, Bool.and_true,
          show 78 ≤ 78 + k by omega, Bool.true_and, Bool.false_or]
        rw [h.bit _ (by omega), h.bit _ (by omega), h.bit _ (by omega), h.bit _ (by omega),
          h.bit _ (by omega), h.bit _ (by omega), show pos + 2 + (78 + k) = pos + k + 80 by ring, hs,
          show pos + (62 + k) = pos + k + 62 by ring, show pos + (51 + k) = pos + k + 51 by ring,
          show pos + (38 + k) = pos + k + 38 by ring, show pos + (23 + k) = pos + k + 23 by ring,
          show pos + (13 + k) = pos + k + 13 by ring]
      · rw [if_neg h2]
        simp [show ¬ i - 78 < 2 by omega]
  refine ⟨Nat.lt_pow_two_of_testBit _ fun i hi => ?_, fun i hi => ?_⟩
  · rw [hbit, if_neg (by omega), if_neg (by omega)]
  · rw [hbit]
    split_ifs with h1
    · rw [h.bit _ (by omega)]; congr 1; ring
    · rfl

theorem Win.even {s pos : ℕ} (h : Win b s pos) : s &&& 1 = (b pos).toNat := by
  have := h.bit 0 (by decide)
  rw [Nat.testBit_zero] at this
  rw [Nat.and_one_is_mod, ← Nat.add_zero pos, ← this]
  rcases Nat.mod_two_eq_zero_or_one s with e | e <;> simp [e]

theorem Win.second {s pos : ℕ} (h : Win b s pos) : (s >>> 1) &&& 1 = (b (pos + 1)).toNat := by
  have := h.bit 1 (by decide)
  rw [← this, Nat.and_one_is_mod]
  rw [show s.testBit 1 = (s >>> 1).testBit 0 by rw [Nat.testBit_shiftRight], Nat.testBit_zero]
  rcases Nat.mod_two_eq_zero_or_one (s >>> 1) with e | e <;> simp [e]

theorem fastTake_sound (hb : IsLfsr init b) (fuel n acc : ℕ) {s v s' : ℕ} {g : Grain} (h : Rel b g s)
    (hf : fastTake fuel n acc s = some (v, s')) :
    ∃ bits g', g.take fuel n = some (bits, g') ∧ v = acc * 2 ^ n + value bits ∧ bits.length = n ∧
      Rel b g' s' := by
  induction fuel generalizing n acc s g with
  | zero =>
    cases n with
    | zero =>
      simp only [fastTake, Option.some.injEq, Prod.mk.injEq] at hf
      exact ⟨[], g, rfl, by simp [value, hf.1], rfl, hf.2 ▸ h⟩
    | succ n => simp [fastTake] at hf
  | succ fuel ih =>
    cases n with
    | zero =>
      simp only [fastTake, Option.some.injEq, Prod.mk.injEq] at hf
      exact ⟨[], g, rfl, by simp [value, hf.1], rfl, hf.2 ▸ h⟩
    | succ n =>
      obtain ⟨pos, hi, hw⟩ := h
      obtain ⟨g1, e1, i1⟩ := getNextBit_spec hb hi
      obtain ⟨g2, e2, i2⟩ := getNextBit_spec hb i1
      have hw2 := hw.adv2 hb
      rw [fastTake] at hf
      cases ht : adv2 s with
      | zero => rw [ht] at hf; cases hf
      | succ t =>
        rw [ht] at hf hw2
        rw [hw.even, hw.second] at hf
        dsimp only at hf
        cases hbp : b pos with
        | false =>
          rw [hbp] at hf
          obtain ⟨bits, g', t1, t2, t3, t4⟩ := ih (n + 1) acc ⟨pos + 2, i2, hw2⟩ hf
          refine ⟨bits, g', ?_, t2, t3, t4⟩
          rw [Grain.take] at t1 ⊢
          simp only [Option.bind_eq_bind, Option.bind_eq_some_iff] at t1 ⊢
          obtain ⟨⟨x, ga⟩, u1, ⟨bs, gb⟩, u2, u3⟩ := t1
          refine ⟨(x, ga), ?_, (bs, gb), take_mono u2 (Nat.le_succ _), u3⟩
          rw [Grain.next, e1]
          simp [hbp, e2, u1]
        | true =>
          rw [hbp] at hf
          have hf' : fastTake fuel n (2 * acc + (b (pos + 1)).toNat) (t + 1) = some (v, s') := by
            rw [← hf]
            dsimp only [Bool.toNat]
            cases 2 * acc + (bif b (pos + 1) then 1 else 0) <;> rfl
          obtain ⟨bits, g', t1, t2, t3, t4⟩ := ih n _ ⟨pos + 2, i2, hw2⟩ hf'
          refine ⟨b (pos + 1) :: bits, g', ?_, ?_, by rw [List.length_cons, t3], t4⟩
          · rw [Grain.take]
            simp only [Option.bind_eq_bind, Option.bind_eq_some_iff]
            refine ⟨(b (pos + 1), g2), ?_, (bits, g'), take_mono t1 (Nat.le_succ _), rfl⟩
            rw [Grain.next, e1]
            simp [hbp, e2]
          · have e : value (b (pos + 1) :: bits) = (2 * 0 + (b (pos + 1)).toNat) * 2 ^ n + value bits := by
              conv_lhs => rw [value, List.foldl_cons, value_go, t3]
            rw [t2, e]
            ring

theorem fastElement_sound (hb : IsLfsr init b) {p lo hi n bitFuel : ℕ} (hlo : lo ≤ p) (hhi : p ≤ hi)
    (fuel : ℕ) {s v s' : ℕ} {g : Grain} (h : Rel b g s)
    (hf : fastElement lo hi n bitFuel fuel s = some (v, s')) :
    ∃ g', g.nextFieldElement p n bitFuel fuel = some ((v : ZMod p), g') ∧ Rel b g' s' := by
  induction fuel generalizing s g with
  | zero => simp [fastElement] at hf
  | succ fuel ih =>
    rw [fastElement] at hf
    rw [Grain.nextFieldElement]
    cases ht : fastTake bitFuel n 0 s with
    | none => rw [ht] at hf; cases hf
    | some r =>
      obtain ⟨w, t⟩ := r
      rw [ht] at hf
      dsimp only at hf
      obtain ⟨bits, g1, t1, t2, -, t4⟩ := fastTake_sound hb bitFuel n 0 h ht
      rw [Nat.zero_mul, Nat.zero_add] at t2
      rw [t1]
      simp only [Option.bind_eq_bind, Option.bind_some, toNat_eq, ← t2]
      split_ifs at hf with h1 h2
      · simp only [Option.some.injEq, Prod.mk.injEq] at hf
        rw [if_pos (h1.trans_le hlo)]
        exact ⟨g1, by rw [hf.1], hf.2 ▸ t4⟩
      · rw [if_neg (by omega)]
        exact ih t4 hf

theorem fastNumber_sound (hb : IsLfsr init b) {p n bitFuel : ℕ} {s v s' : ℕ} {g : Grain}
    (h : Rel b g s) (hf : fastTake bitFuel n 0 s = some (v, s')) :
    ∃ g', g.nextFieldElementWithoutRejection p n bitFuel = some ((v : ZMod p), g') ∧ Rel b g' s' := by
  obtain ⟨bits, g1, t1, t2, -, t4⟩ := fastTake_sound hb bitFuel n 0 h hf
  rw [Nat.zero_mul, Nat.zero_add] at t2
  refine ⟨g1, ?_, t4⟩
  rw [Grain.nextFieldElementWithoutRejection, t1]
  simp only [Option.bind_eq_bind, Option.bind_some, toNat_eq, ← t2]

end Verif.P128
