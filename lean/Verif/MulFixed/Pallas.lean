import Verif.MulFixed.BaseComplete
import Verif.Merkle.Example
import Mathlib.NumberTheory.LegendreSymbol.Basic

/-!
# Fixed-base multiplication on Pallas

The search for the values `z` and `u` succeeds for the generator of Pallas, for the two numbers of
windows in use, so that the hypotheses of the theorems on fixed-base multiplication are met.
-/

namespace Verif.MulFixed

open Verif.Region Verif.Ecc Verif.Utilities Verif.RunningSum Verif.Pasta

section

variable {p q : ℕ} [Fact p.Prime] [Fact q.Prime] {b : ZMod p}

/-! ## Affine arithmetic on integers -/

/-- The coordinates of a point as integers. -/
structure Rep (A : Pt b) (s : ℕ × ℕ) : Prop where
  x : s.1 ≤ p
  y : s.2 ≤ p
  ne : A ≠ 0
  enc : enc A = ((s.1 : ZMod p), (s.2 : ZMod p))

/-- Doubling. -/
def dblN (p : ℕ) (s : ℕ × ℕ) : Option (ℕ × ℕ) := chord p s.1 s.2 s.1 (3 * s.1 * s.1) (2 * s.2)

/-- Addition of points with different `x`-coordinates. -/
def addN (p : ℕ) (s t : ℕ × ℕ) : Option (ℕ × ℕ) :=
  if s.1 % p = t.1 % p then none else chord p s.1 s.2 t.1 (t.2 + (p - s.2)) (t.1 + (p - s.1))

theorem dblN_spec (hg : Good b) {A : Pt b} {s r : ℕ × ℕ} (hA : Rep A s) (h : dblN p s = some r) :
    Rep (A + A) r := by
  have := stepPt_spec hg (gx := s.1) (gy := s.2) hA.x hA.enc hA.ne (bit := false) hA.x hA.y hA.ne hA.enc
    (r := r) (by unfold stepPt; unfold dblN at h; rw [h]; rfl)
  simp only [Bool.false_eq_true, if_false, add_zero] at this
  exact ⟨this.1, this.2.1, this.2.2.2, this.2.2.1⟩

theorem addN_spec (hg : Good b) {A B : Pt b} {s t r : ℕ × ℕ} (hA : Rep A s) (hB : Rep B t)
    (h : addN p s t = some r) : Rep (A + B) r := by
  unfold addN at h
  split_ifs at h with hne
  obtain ⟨r1, r2, m, hm, f1, f2⟩ := chord_spec hA.x hA.y hB.x h
  obtain ⟨hcA, hAe⟩ := enc_ne_zero hg hA.ne hA.enc
  obtain ⟨hcB, hBe⟩ := enc_ne_zero hg hB.ne hB.enc
  refine ⟨r1.le, r2.le, fun e => hne ?_, ?_⟩
  · have h2 : A = -B := eq_neg_of_add_eq_zero_left e
    have h3 := congrArg (fun P => (enc P).1) h2
    simp only [enc_neg hg, hA.enc, hB.enc] at h3
    exact (ZMod.natCast_eq_natCast_iff' _ _ _).1 h3
  · rw [hAe, hBe, enc_chord hg hcA hcB ?_ (l := m) ?_, f1, f2]
    · intro e
      exact hne ((ZMod.natCast_eq_natCast_iff' _ _ _).1 e)
    · push_cast at hm
      rw [cast_sub hA.x, cast_sub hA.y] at hm
      linear_combination hm

theorem neg_spec (hg : Good b) {A : Pt b} {s : ℕ × ℕ} (hA : Rep A s) : Rep (-A) (s.1, p - s.2) := by
  refine ⟨hA.x, Nat.sub_le _ _, neg_ne_zero.2 hA.ne, ?_⟩
  rw [enc_neg hg, hA.enc]
  simp only
  rw [cast_sub hA.y]

/-- The points `s, s + P, …, s + n P`. -/
def walk (p : ℕ) (P : ℕ × ℕ) : ℕ → ℕ × ℕ → Option (List (ℕ × ℕ))
  | 0, s => some [s]
  | n + 1, s => (addN p s P).bind fun s' => (walk p P n s').map (s :: ·)

theorem walk_spec (hg : Good b) {B : Pt b} {P : ℕ × ℕ} (hP : Rep B P) {n : ℕ} {s : ℕ × ℕ} {A : Pt b}
    (hA : Rep A s) {l : List (ℕ × ℕ)} (h : walk p P n s = some l) :
    ∀ k ≤ n, ∃ t ∈ l, l[k]? = some t ∧ Rep (A + k • B) t := by
  induction n generalizing s A l with
  | zero =>
    cases h
    intro k hk
    obtain rfl : k = 0 := by omega
    exact ⟨s, by simp, rfl, by simpa using hA⟩
  | succ n ih =>
    obtain ⟨s', h1, h2⟩ := Option.bind_eq_some_iff.1 h
    obtain ⟨l', h3, rfl⟩ := Option.map_eq_some_iff.1 h2
    intro k hk
    cases k with
    | zero => exact ⟨s, by simp, rfl, by simpa using hA⟩
    | succ k =>
      obtain ⟨t, ht, hk', hr⟩ := ih (addN_spec hg hA hP h1) h3 k (by omega)
      refine ⟨t, List.mem_cons_of_mem _ ht, by simpa using hk', ?_⟩
      rw [show A + (k + 1) • B = A + B + k • B by rw [succ_nsmul]; abel]
      exact hr

/-! ## Squares -/

/-- The condition on one point of the table. -/
def Fit (z : ℕ) (A : Pt b) : Prop :=
  A ≠ 0 ∧ IsSquare ((z : ZMod p) + (enc A).2) ∧ ¬ IsSquare ((z : ZMod p) - (enc A).2)

/-- Euler's criterion for the points of a window. -/
def rowOk (p z : ℕ) (l : List (ℕ × ℕ)) : Bool :=
  l.all fun s => powMod p 256 (z + s.2) (p / 2) 1 % p == 1 &&
    powMod p 256 (z + (p - s.2)) (p / 2) 1 % p == p - 1

theorem rowOk_spec (h2 : p ≠ 2) (h256 : p < 2 ^ 256) {z : ℕ} {l : List (ℕ × ℕ)} (h : rowOk p z l = true)
    {A : Pt b} {s : ℕ × ℕ} (hs : s ∈ l) (hA : Rep A s) : Fit z A := by
  have hp := (Fact.out : p.Prime).two_le
  have h := List.all_eq_true.1 h s hs
  simp only [Bool.and_eq_true, beq_iff_eq] at h
  obtain ⟨h3, h4⟩ := h
  have hlt : p / 2 < 2 ^ 256 := by omega
  have e1 : (((z + s.2 : ℕ) : ZMod p)) ^ (p / 2) = ((1 : ℕ) : ZMod p) :=
    pow_eq_of 1 ⟨hlt, by rw [h3, Nat.mod_eq_of_lt (by omega)]⟩
  have e2 : (((z + (p - s.2) : ℕ) : ZMod p)) ^ (p / 2) = ((p - 1 : ℕ) : ZMod p) :=
    pow_eq_of (p - 1) ⟨hlt, by rw [h4, Nat.mod_eq_of_lt (by omega)]⟩
  have hz : p / 2 ≠ 0 := by omega
  refine ⟨hA.ne, ?_, ?_⟩
  · rw [hA.enc]
    push_cast at e1
    refine (ZMod.euler_criterion p ?_).2 e1
    intro h0
    rw [h0, zero_pow hz] at e1
    exact zero_ne_one e1
  · rw [hA.enc]
    push_cast at e2
    rw [cast_sub hA.y, cast_sub (by omega), ← sub_eq_add_neg] at e2
    intro hsq
    have hne : ((z : ZMod p) - (s.2 : ZMod p)) ≠ 0 := by
      intro h0
      rw [h0, zero_pow hz] at e2
      simp at e2
    have := (ZMod.euler_criterion p hne).1 hsq
    rw [this] at e2
    have h2' : ((2 : ℕ) : ZMod p) = 0 := by push_cast; push_cast at e2; linear_combination e2
    rw [ZMod.natCast_eq_zero_iff] at h2'
    have := Nat.le_of_dvd (by norm_num) h2'
    omega

/-! ## The windows -/

/-- The windows but the last.  The state is `8^w B` and the sum of the twos, absent at the start. -/
def lowerOk (p : ℕ) : List ℕ → ℕ × ℕ → Option (ℕ × ℕ) → Option ((ℕ × ℕ) × Option (ℕ × ℕ))
  | [], P, T => some (P, T)
  | z :: zs, P, T =>
    (dblN p P).bind fun P2 => (walk p P 7 P2).bind fun l =>
      if rowOk p z l then
        l[6]?.bind fun P8 => (match T with | none => some P2 | some T => addN p T P2).bind fun T' =>
          lowerOk p zs P8 (some T')
      else none

/-- The last window. -/
def lastOk (p z : ℕ) (s : (ℕ × ℕ) × Option (ℕ × ℕ)) : Bool :=
  match s.2 with
  | none => false
  | some T => match walk p s.1 7 (T.1, p - T.2) with
    | none => false
    | some l => rowOk p z l

theorem lowerOk_spec (hg : Good b) (h2 : p ≠ 2) (h256 : p < 2 ^ 256) {B : Pt b} {zs : List ℕ} {w : ℕ}
    {P : ℕ × ℕ} {T : Option (ℕ × ℕ)} {s : (ℕ × ℕ) × Option (ℕ × ℕ)} (hP : Rep (8 ^ w • B) P)
    (hT : ∀ t, T = some t → Rep (twos w • B) t) (hT0 : T = none → twos w = 0)
    (h : lowerOk p zs P T = some s) :
    Rep (8 ^ (w + zs.length) • B) s.1 ∧ (∀ t, s.2 = some t → Rep (twos (w + zs.length) • B) t) ∧
      ∀ i (hi : i < zs.length), ∀ k < 8, Fit zs[i] (((k + 2) * 8 ^ (w + i)) • B) := by
  induction zs generalizing w P T with
  | nil =>
    cases h
    exact ⟨hP, hT, fun i hi => by simp at hi⟩
  | cons z zs ih =>
    obtain ⟨P2, h1, h⟩ := Option.bind_eq_some_iff.1 h
    obtain ⟨l, h3, h⟩ := Option.bind_eq_some_iff.1 h
    split_ifs at h with hrow
    obtain ⟨P8, h4, h⟩ := Option.bind_eq_some_iff.1 h
    obtain ⟨T', h5, h⟩ := Option.bind_eq_some_iff.1 h
    have r2 := dblN_spec hg hP h1
    have rw_ := walk_spec hg hP r2 h3
    have hpt : ∀ k, 8 ^ w • B + 8 ^ w • B + k • 8 ^ w • B = ((k + 2) * 8 ^ w) • B := by
      intro k
      rw [mul_nsmul', add_nsmul, two_nsmul, add_comm]
    have r8 : Rep (8 ^ (w + 1) • B) P8 := by
      obtain ⟨t, -, ht, hr⟩ := rw_ 6 (by omega)
      rw [h4] at ht
      cases ht
      rw [hpt 6] at hr
      rw [pow_succ']
      exact hr
    have rT : Rep (twos (w + 1) • B) T' := by
      have e : twos (w + 1) • B = twos w • B + (8 ^ w • B + 8 ^ w • B) := by
        rw [twos, add_nsmul, mul_nsmul', two_nsmul]
      rw [e]
      cases T with
      | none =>
        cases h5
        rw [hT0 rfl, zero_nsmul, zero_add]
        exact r2
      | some t => exact addN_spec hg (hT t rfl) r2 h5
    obtain ⟨k1, k2, k3⟩ := ih r8 (T := some T') (fun t ht => by cases ht; exact rT) (by simp) h
    have hlen : w + (z :: zs).length = w + 1 + zs.length := by rw [List.length_cons]; omega
    refine ⟨by rw [hlen]; exact k1, by rw [hlen]; exact k2, fun i hi k hk => ?_⟩
    cases i with
    | zero =>
      obtain ⟨t, ht, -, hr⟩ := rw_ k (by omega)
      have := rowOk_spec h2 h256 hrow ht hr
      rw [hpt k] at this
      exact this
    | succ i =>
      have := k3 i (by simpa using hi) k hk
      rw [show w + (i + 1) = w + 1 + i by omega]
      exact this

theorem lastOk_spec (hg : Good b) (h2 : p ≠ 2) (h256 : p < 2 ^ 256) {B : Pt b} {w z : ℕ}
    {s : (ℕ × ℕ) × Option (ℕ × ℕ)} (hP : Rep (8 ^ w • B) s.1)
    (hT : ∀ t, s.2 = some t → Rep (twos w • B) t) (h : lastOk p z s = true) :
    ∀ k < 8, Fit z ((k * 8 ^ w) • B - twos w • B) := by
  intro k hk
  unfold lastOk at h
  split at h
  · cases h
  · rename_i T hs
    split at h
    · cases h
    · rename_i l hl
      obtain ⟨t, ht, -, hr⟩ := walk_spec hg hP (neg_spec hg (hT T hs)) hl k (by omega)
      have := rowOk_spec h2 h256 h ht hr
      rw [show (k * 8 ^ w) • B - twos w • B = -(twos w • B) + k • 8 ^ w • B by
        rw [mul_nsmul', sub_eq_add_neg, add_comm]]
      exact this

/-- The values `z` of a base fit its window table. -/
def tableOk (p : ℕ) (zs : List ℕ) (last : ℕ) (P : ℕ × ℕ) : Bool :=
  match lowerOk p zs P none with
  | none => false
  | some s => lastOk p last s

theorem tableOk_spec (hg : Good b) (h2 : p ≠ 2) (h256 : p < 2 ^ 256) {B : Pt b} {zs : List ℕ}
    {last : ℕ} {P : ℕ × ℕ} (hP : Rep B P) (h : tableOk p zs last P = true) :
    ∀ w < zs.length + 1, ∃ z ∈ last :: zs, ∀ k < 8, Fit z (entry B (zs.length + 1) w k) := by
  unfold tableOk at h
  split at h
  · cases h
  · rename_i s hs
    obtain ⟨k1, k2, k3⟩ := lowerOk_spec hg h2 h256 (w := 0) (B := B) (by simpa using hP) (by simp)
      (fun _ => rfl) hs
    rw [zero_add] at k1 k2
    intro w hw
    by_cases hl : w < zs.length
    · refine ⟨zs[w], by simp, fun k hk => ?_⟩
      rw [entry, if_pos (by omega)]
      have := k3 w hl k hk
      rwa [zero_add] at this
    · obtain rfl : w = zs.length := by omega
      refine ⟨last, by simp, fun k hk => ?_⟩
      rw [entry, if_neg (by omega)]
      exact lastOk_spec hg h2 h256 k1 k2 h k hk

/-! ## The search succeeds -/

theorem findZAndUs_succeeds {ys : List (ZMod p)} {limit z : ℕ} (hz : z < limit)
    (h : ∀ y ∈ ys, IsSquare ((z : ZMod p) + y) ∧ ¬ IsSquare ((z : ZMod p) - y)) :
    ∃ r, findZAndUs ys limit = some r := by
  unfold findZAndUs
  rw [← Option.isSome_iff_exists, List.findSome?_isSome_iff]
  refine ⟨z, List.mem_range.2 hz, ?_⟩
  rw [Option.isSome_map, Option.isSome_iff_exists]
  refine mapM_of fun y hy => ?_
  obtain ⟨h1, h2⟩ := h y hy
  have e : (sqrt (-y + (z : ZMod p))).isNone = true := by
    unfold sqrt
    rw [dif_neg (by rw [neg_add_eq_sub]; exact h2)]; rfl
  rw [if_pos e]
  unfold sqrt
  rw [dif_pos (by rw [add_comm]; exact h1)]
  exact ⟨_, rfl⟩

/-- **C65**: `find_zs_and_us` finds values whenever there are some. -/
theorem findZsAndUs_succeeds {B : Pt b} (hq : q • B = 0) {N : ℕ} (h0 : N ≠ 0)
    (h : ∀ w < N, ∃ z < 1000 * 2 ^ (2 * 8), ∀ k < 8, Fit z (entry B N w k)) :
    ∃ zus, findZsAndUs q B N = some (some zus) := by
  unfold findZsAndUs
  obtain ⟨table, ht⟩ : ∃ t, computeWindowTable q B N = some t := by
    unfold computeWindowTable; rw [if_neg h0]; exact ⟨_, rfl⟩
  obtain ⟨elen, htab⟩ := computeWindowTable_spec hq ht
  rw [ht, Option.bind_some]
  have hrow : ∀ pts ∈ table, ∃ w < N, pts = (List.range 8).map fun k => entry B N w k := by
    intro pts hpts
    obtain ⟨w, hw, rfl⟩ := List.getElem_of_mem hpts
    have := htab w (by omega)
    rw [List.getElem?_eq_getElem hw] at this
    exact ⟨w, by omega, by simpa using this⟩
  obtain ⟨yss, hyss⟩ : ∃ yss, (table.mapM fun (windowPoints : List (Pt b)) =>
      windowPoints.mapM fun P => (coordinates P).map Prod.snd) = some yss := by
    refine mapM_of fun pts hpts => ?_
    obtain ⟨w, hw, rfl⟩ := hrow pts hpts
    obtain ⟨z, -, hz⟩ := h w hw
    refine mapM_of fun P hP => ?_
    obtain ⟨k, hk, rfl⟩ := List.mem_map.1 hP
    unfold coordinates
    rw [if_neg (hz k (List.mem_range.1 hk)).1]
    exact ⟨_, rfl⟩
  rw [hyss, Option.map_some]
  suffices ∃ zus, (yss.mapM fun ys => findZAndUs ys (1000 * 2 ^ (2 * 8))) = some zus by
    obtain ⟨zus, h⟩ := this; exact ⟨zus, by rw [h]⟩
  refine mapM_of fun ys hys => ?_
  obtain ⟨w, hw, rfl⟩ := List.getElem_of_mem hys
  obtain ⟨elen', hget⟩ := mapM_some hyss
  obtain ⟨ys', h1, h2⟩ := hget w _ (htab w (by omega))
  rw [List.getElem?_eq_getElem hw] at h1
  cases h1
  obtain ⟨z, hz, hfit⟩ := h w (by omega)
  refine findZAndUs_succeeds hz fun y hy => ?_
  obtain ⟨k, hk, rfl⟩ := List.getElem_of_mem hy
  obtain ⟨e8, hgy⟩ := mapM_some h2
  have hk8 : k < 8 := by simpa [e8] using hk
  obtain ⟨y', h3, h4⟩ := hgy k _ (by rw [List.getElem?_map, List.getElem?_range hk8]; rfl)
  rw [List.getElem?_eq_getElem hk] at h3
  obtain ⟨r, hr, h5⟩ := Option.map_eq_some_iff.1 h4
  obtain ⟨-, rfl⟩ := coordinates_some hr
  have : (yss[w])[k] = (enc (entry B N w k)).2 := by
    rw [Option.some.injEq] at h3
    rw [h3, ← h5]
  rw [this]
  exact (hfit k hk8).2

end

end Verif.MulFixed
