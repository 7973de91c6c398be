import Verif.Mds.Props
import Verif.P128.Generated
import Verif.Pow5.SpongeProps
import Mathlib.FieldTheory.Finite.Basic

/-!
# The instance `P128Pow5T3` (C78)
-/

namespace Verif.P128

open Verif.Grain Verif.Pasta Matrix

/-! ### The generator yields the round constants -/

section Draw

variable {init : Fin 80 → Bool} {b : ℕ → Bool}

theorem drawRow_sound (hb : IsLfsr init b) {p lo hi n bitFuel fuel : ℕ} (hlo : lo ≤ p) (hhi : p ≤ hi)
    (l : List ℕ) {s s' : ℕ} {g : Grain} (h : Rel b g s)
    (hf : fastElements lo hi n bitFuel fuel l s = some s') :
    ∃ g', drawRow p n bitFuel fuel l.length g = some (l.map fun v : ℕ => (v : ZMod p), g') ∧
      Rel b g' s' := by
  induction l generalizing s g with
  | nil =>
    simp only [fastElements, Option.some.injEq] at hf
    exact ⟨g, rfl, hf ▸ h⟩
  | cons v l ih =>
    rw [fastElements] at hf
    cases he : fastElement lo hi n bitFuel fuel s with
    | none => rw [he] at hf; cases hf
    | some r =>
      obtain ⟨w, t⟩ := r
      rw [he] at hf
      dsimp only at hf
      obtain ⟨g1, h1, r1⟩ := fastElement_sound hb hlo hhi fuel h he
      cases t with
      | zero => cases hf
      | succ t =>
        dsimp only at hf
        split_ifs at hf with hv
        obtain ⟨g2, h2, r2⟩ := ih r1 hf
        refine ⟨g2, ?_, r2⟩
        rw [List.length_cons, drawRow, h1]
        simp only [Option.bind_eq_bind, Option.bind_some, h2, List.map_cons, hv]

theorem fastElements_append (lo hi n bitFuel fuel : ℕ) (l l' : List ℕ) (s : ℕ) :
    fastElements lo hi n bitFuel fuel (l ++ l') s
      = (fastElements lo hi n bitFuel fuel l s).bind (fastElements lo hi n bitFuel fuel l') := by
  induction l generalizing s with
  | nil => rfl
  | cons v l ih =>
    rw [List.cons_append, fastElements, fastElements]
    cases fastElement lo hi n bitFuel fuel s with
    | none => rfl
    | some r =>
      obtain ⟨w, t⟩ := r
      cases t with
      | zero => rfl
      | succ t =>
        dsimp only
        split_ifs
        · exact ih _
        · rfl

theorem drawRows_sound (hb : IsLfsr init b) {p lo hi n bitFuel fuel : ℕ} (hlo : lo ≤ p) (hhi : p ≤ hi)
    (rows : List (List ℕ)) (hr : ∀ row ∈ rows, row.length = 3) {s s' : ℕ} {g : Grain} (h : Rel b g s)
    (hf : fastElements lo hi n bitFuel fuel rows.flatten s = some s') :
    ∃ g', drawRows p n bitFuel fuel 3 rows.length g = some (table p rows, g') ∧ Rel b g' s' := by
  induction rows generalizing s g with
  | nil =>
    simp only [List.flatten_nil, fastElements, Option.some.injEq] at hf
    exact ⟨g, rfl, hf ▸ h⟩
  | cons row rows ih =>
    rw [List.flatten_cons, fastElements_append, Option.bind_eq_some_iff] at hf
    obtain ⟨t, h1, h2⟩ := hf
    obtain ⟨g1, e1, r1⟩ := drawRow_sound hb hlo hhi row h h1
    obtain ⟨g2, e2, r2⟩ := ih (fun r h => hr r (List.mem_cons_of_mem _ h)) r1 h2
    rw [hr row List.mem_cons_self] at e1
    refine ⟨g2, ?_, r2⟩
    rw [List.length_cons, drawRows, e1]
    simp only [Option.bind_eq_bind, Option.bind_some, e2, table, List.map_cons]
    congr 3
    funext i
    simp only [List.getD_eq_getElem?_getD, List.getElem?_map]
    cases row[(i : ℕ)]? <;> simp

/-- The generator of elements without rejection, as `generateConstants` uses it. -/
theorem draw_sound (hb : IsLfsr init b) {p n bitFuel : ℕ} [Fact p.Prime] [LinearOrder (ZMod p)]
    (l : List ℕ) {s : ℕ} {g : Grain} (h : Rel b g s) (hf : fastNumbers n bitFuel l s = true) :
    ∃ g', Verif.Mds.draw
      (fun g : Grain => (g.nextFieldElementWithoutRejection p n bitFuel).getD (0, g)) l.length g
        = (l.map fun v : ℕ => (v : ZMod p), g') := by
  induction l generalizing s g with
  | nil => exact ⟨g, rfl⟩
  | cons v l ih =>
    rw [fastNumbers] at hf
    cases he : fastTake bitFuel n 0 s with
    | none => rw [he] at hf; cases hf
    | some r =>
      obtain ⟨w, t⟩ := r
      rw [he] at hf
      dsimp only at hf
      obtain ⟨g1, h1, r1⟩ := fastNumber_sound (p := p) hb h he
      cases t with
      | zero => cases hf
      | succ t =>
        dsimp only at hf
        split_ifs at hf with hv
        obtain ⟨g2, h2⟩ := ih r1 hf
        refine ⟨g2, ?_⟩
        rw [List.length_cons, Verif.Mds.draw, h1, Option.getD_some]
        dsimp only
        rw [h2, hv]
        rfl

end Draw

/-! ### From the parameters to the first state -/

/-- The number made of the bits of the initial state. -/
def initNat : ℕ := ((specInit 0 255 3 8 56).zipIdx.map fun b => if b.1 then 2 ^ b.2 else 0).sum

theorem start_win {b : ℕ → Bool}
    (hb : IsLfsr (fun i => (specInit 0 255 3 8 56)[i.1]'(by rw [specInit_length]; exact i.2)) b) :
    Win b start 240 := by
  have h0 : Win b initNat 0 := by
    refine ⟨by decide +kernel, fun i hi => ?_⟩
    have h1 : ∀ i : Fin 80, initNat.testBit i
        = (specInit 0 255 3 8 56)[i.1]'(by rw [specInit_length]; exact i.2) := by decide +kernel
    rw [Nat.zero_add, show b i = b (⟨i, hi⟩ : Fin 80) from rfl, hb.start]
    exact h1 ⟨i, hi⟩
  have h1 : ∀ k, Win b (adv2^[k] initNat) (2 * k) := by
    intro k
    induction k with
    | zero => exact h0
    | succ k ih => rw [Function.iterate_succ_apply']; exact ih.adv2 hb
  have h2 := h1 120
  rwa [show adv2^[120] initNat = start by decide +kernel] at h2

theorem cast_ne {p a c : ℕ} (h : a % p ≠ c % p) : (a : ZMod p) ≠ (c : ZMod p) := fun e =>
  h ((ZMod.natCast_eq_natCast_iff' _ _ _).1 e)

/-- What has to be computed about the matrices of one of the two fields. -/
structure Checked (p : ℕ) (mds mdsInv : List (List ℕ)) : Prop where
  lo : 2 ^ 254 ≤ p
  hi : p ≤ vesta
  nodup : (drawn.map (· % p)).Nodup
  sums : ∀ i j : Fin 3, (drawn.getD i 0 + drawn.getD (3 + j) 0) % p ≠ 0
  entries : ∀ i j : Fin 3,
    (mds.getD i []).getD j 0 * (drawn.getD i 0 + drawn.getD (3 + j) 0) % p = 1 % p
  inverse : ∀ i j : Fin 3, ((mds.getD i []).getD 0 0 * (mdsInv.getD 0 []).getD j 0
    + (mds.getD i []).getD 1 0 * (mdsInv.getD 1 []).getD j 0
    + (mds.getD i []).getD 2 0 * (mdsInv.getD 2 []).getD j 0) % p = (if i = j then 1 else 0) % p

theorem checked_fp : Checked pallas fpMds fpMdsInv := by
  constructor <;> decide +kernel

theorem checked_fq : Checked vesta fqMds fqMdsInv := by
  constructor <;> decide +kernel

theorem Checked.mul_inv {p : ℕ} {mds mdsInv : List (List ℕ)} (h : Checked p mds mdsInv) :
    Matrix.of (matrix p mds) * Matrix.of (matrix p mdsInv) = 1 := by
  ext i j
  rw [Matrix.mul_apply, Fin.sum_univ_three, Matrix.one_apply]
  have := (ZMod.natCast_eq_natCast_iff' _ _ _).2 (h.inverse i j)
  push_cast at this
  exact this

theorem nodup_cast {p : ℕ} {l : List ℕ} (h : (l.map (· % p)).Nodup) :
    (l.map fun v : ℕ => (v : ZMod p)).Nodup :=
  (List.Nodup.of_map _ h).map_on fun a ha c hc e =>
    List.inj_on_of_nodup_map h ha hc ((ZMod.natCast_eq_natCast_iff' _ _ _).1 e)

theorem Checked.generateMds {p : ℕ} [Fact p.Prime] [LinearOrder (ZMod p)] {mds mdsInv : List (List ℕ)}
    (h : Checked p mds mdsInv) {σ : Type} (gen : σ → ZMod p × σ) (g g' : σ)
    (hd : Verif.Mds.draw gen (2 * 3) g = (drawn.map fun v : ℕ => (v : ZMod p), g')) :
    ∃ r, Verif.Mds.generateMds gen 3 50 0 g = some (r, g') ∧ r.mds = matrix p mds ∧
      r.mdsInv = matrix p mdsInv := by
  have hn := nodup_cast h.nodup
  have hs : Verif.Mds.search gen 3 50 0 g = some (drawn.map fun v : ℕ => (v : ZMod p), g') := by
    rw [Verif.Mds.search, hd]
    dsimp only
    rw [if_pos ((Verif.Mds.isUnique_iff _).2 hn), if_neg (by simp)]
  have hget : ∀ i, i < 6 → (drawn.map fun v : ℕ => (v : ZMod p)).getD i 0
      = ((drawn.getD i 0 : ℕ) : ZMod p) := by
    intro i hi
    interval_cases i <;> rfl
  set xs : Fin 3 → ZMod p := fun i => ((drawn.map fun v : ℕ => (v : ZMod p)).take 3).getD i 0 with hxs
  set ys : Fin 3 → ZMod p := fun i => ((drawn.map fun v : ℕ => (v : ZMod p)).drop 3).getD i 0 with hys
  have hx : ∀ i, xs i = ((drawn.getD i 0 : ℕ) : ZMod p) := fun i => by fin_cases i <;> rfl
  have hy : ∀ i, ys i = ((drawn.getD (3 + i) 0 : ℕ) : ZMod p) := fun i => by fin_cases i <;> rfl
  have hinj : ∀ a c, a < 6 → c < 6 → ((drawn.getD a 0 : ℕ) : ZMod p) = ((drawn.getD c 0 : ℕ) : ZMod p) →
      a = c := by
    intro a c ha hc e
    rw [← hget a ha, ← hget c hc, List.getD_eq_getElem _ _ (by simpa [drawn] using ha),
      List.getD_eq_getElem _ _ (by simpa [drawn] using hc)] at e
    exact (hn.getElem_inj_iff).1 e
  have hxi : Function.Injective xs := fun a c e => by
    rw [hx, hx] at e
    exact Fin.ext (hinj _ _ (by omega) (by omega) e)
  have hyi : Function.Injective ys := fun a c e => by
    rw [hy, hy] at e
    have := hinj _ _ (by omega) (by omega) e
    exact Fin.ext (by omega)
  have hsum : ∀ i j, xs i + ys j ≠ 0 := fun i j => by
    rw [hx, hy, ← Nat.cast_add]
    have := cast_ne (c := 0) fun e => h.sums i j (e.trans (Nat.zero_mod p))
    rwa [Nat.cast_zero] at this
  obtain ⟨h1, h2⟩ := Verif.Mds.build_succeeds xs ys hxi hyi hsum
  obtain ⟨m, hm⟩ := Option.isSome_iff_exists.1 h1
  obtain ⟨mi, hmi⟩ := Option.isSome_iff_exists.1 h2
  have hg : Verif.Mds.generateMds gen 3 50 0 g = some (⟨xs, ys, m, mi⟩, g') := by
    rw [Verif.Mds.generateMds, hs]
    simp only [Option.bind_eq_bind, Option.bind_some]
    rw [← hxs, ← hys, hm, hmi]
    rfl
  obtain ⟨s1, s2, s3, -⟩ := Verif.Mds.generateMds_spec gen 3 50 0 g hg
  have em : m = matrix p mds := by
    funext i j
    have e1 : m i j * (xs i + ys j) = 1 := s1 i j
    have e2 : matrix p mds i j * (xs i + ys j) = 1 := by
      have := (ZMod.natCast_eq_natCast_iff' _ _ _).2 (h.entries i j)
      push_cast at this
      rw [hx, hy]
      exact this
    exact mul_right_cancel₀ (hsum i j) (e1.trans e2.symm)
  refine ⟨_, hg, em, ?_⟩
  have e3 : Matrix.of mi * Matrix.of m = 1 := s3
  have e4 : Matrix.of m * Matrix.of (matrix p mdsInv) = 1 := em ▸ h.mul_inv
  exact Matrix.of.injective (left_inv_eq_right_inv e3 e4)

theorem generated_of {p : ℕ} [Fact p.Prime] [LinearOrder (ZMod p)] {mds mdsInv : List (List ℕ)}
    (h : Checked p mds mdsInv) :
    generateConstants p 255 3 8 56 0 2000 50
      = some (table p fpRoundConstants, matrix p mds, matrix p mdsInv) := by
  obtain ⟨g₀, e0, i0, -⟩ := grain_spec 0 255 3 8 56
  have hb := lfsr_isLfsr fun i =>
    (specInit 0 255 3 8 56)[i.1]'(by rw [specInit_length]; exact i.2)
  have r0 : Rel _ g₀ start := ⟨240, i0, start_win hb⟩
  obtain ⟨g₁, e1, r1⟩ := drawRows_sound hb h.lo h.hi fpRoundConstants (by decide +kernel) r0
    run_elements
  rw [show fpRoundConstants.length = 8 + 56 by decide +kernel] at e1
  obtain ⟨g₂, e2⟩ := draw_sound (p := p) hb drawn r1 run_numbers
  obtain ⟨r, e3, em, ei⟩ := h.generateMds _ _ _ e2
  rw [generateConstants, e0, Option.bind_eq_bind, Option.bind_some, e1, Option.bind_eq_bind,
    Option.bind_some]
  dsimp only
  rw [e3, Option.bind_eq_bind, Option.bind_some]
  dsimp only
  rw [em, ei]

/-- **C78**: the constants of `P128Pow5T3` over the Pallas base field are those that
`generate_constants` computes, with the first matrix (`secure_mds` is 0).  The bounds on the loops
are large enough; the order on the field does not matter. -/
theorem fp_generated [LinearOrder (ZMod pallas)] :
    generateConstants pallas 255 3 fp.fullRounds fp.partialRounds 0 2000 50
      = some (fp.roundConstants, fp.mds, fp.mdsInv) :=
  generated_of checked_fp

/-- **C78**: the same over the Vesta base field. -/
theorem fq_generated [LinearOrder (ZMod vesta)] :
    generateConstants vesta 255 3 fq.fullRounds fq.partialRounds 0 2000 50
      = some (fq.roundConstants, fq.mds, fq.mdsInv) := by
  have := generated_of checked_fq
  rw [← same_constants] at this
  exact this

/-! ### The permutation is a bijection -/

theorem pow_bijective {p : ℕ} [Fact p.Prime] (e : ℕ) (he : 5 * e % (p - 1) = 1) (hp : 1 < p - 1) :
    Function.Bijective fun x : ZMod p => x ^ 5 := by
  have hinj : Function.Injective fun x : ZMod p => x ^ 5 := by
    refine Function.LeftInverse.injective (g := fun y => y ^ e) fun x => ?_
    dsimp only
    rw [← pow_mul]
    by_cases hx : x = 0
    · subst hx
      rw [zero_pow]
      intro h0
      rw [h0, Nat.zero_mod] at he
      cases he
    · rw [← Nat.div_add_mod (5 * e) (p - 1), he, pow_add, pow_mul, ZMod.pow_card_sub_one_eq_one hx,
        one_pow, one_mul, pow_one]
  exact Finite.injective_iff_bijective.1 hinj

section Bijective

variable {F : Type} [Field F] {T : ℕ}

theorem applyMds_eq (m : Fin T → Fin T → F) (s : Poseidon.State F T) :
    Poseidon.applyMds m s = (Matrix.of m).mulVec s := by
  funext i
  rw [Poseidon.applyMds, Matrix.mulVec, dotProduct, ← List.sum_ofFn, List.ofFn_eq_map]
  generalize List.finRange T = l
  have : ∀ a : F, l.foldl (fun acc j => acc + m i j * s j) a
      = a + (l.map fun j => m i j * s j).sum := by
    induction l with
    | nil => simp
    | cons j l ih => intro a; rw [List.foldl_cons, ih, List.map_cons, List.sum_cons]; ring
  rw [this, zero_add]
  rfl

theorem applyMds_bijective {m mi : Fin T → Fin T → F} (h : Matrix.of m * Matrix.of mi = 1) :
    Function.Bijective (Poseidon.applyMds m) := by
  have h' : Matrix.of mi * Matrix.of m = 1 := mul_eq_one_comm.1 h
  refine Function.bijective_iff_has_inverse.2 ⟨Poseidon.applyMds mi, fun s => ?_, fun s => ?_⟩
  · rw [applyMds_eq, applyMds_eq, Matrix.mulVec_mulVec, h', Matrix.one_mulVec]
  · rw [applyMds_eq, applyMds_eq, Matrix.mulVec_mulVec, h, Matrix.one_mulVec]

/-- Any specification with a bijective S-box and an invertible matrix has a bijective
permutation. -/
theorem permute_bijective [NeZero T] (S : Poseidon.Spec F T) (hs : Function.Bijective S.sbox)
    (hm : Matrix.of S.mds * Matrix.of S.mdsInv = 1) : Function.Bijective (Poseidon.permute S) := by
  have hfull : ∀ rcs, Function.Bijective fun s => Poseidon.fullRound S s rcs := by
    intro rcs
    refine (applyMds_bijective hm).comp ⟨fun a c e => ?_, fun t => ?_⟩
    · funext i
      exact add_right_cancel (hs.1 (congrFun e i))
    · choose u hu using fun i => hs.2 (t i)
      exact ⟨fun i => u i - rcs i, funext fun i => by dsimp only; rw [sub_add_cancel, hu]⟩
  have hpart : ∀ rcs, Function.Bijective fun s => Poseidon.partRound S s rcs := by
    intro rcs
    refine (applyMds_bijective hm).comp ⟨fun a c e => ?_, fun t => ?_⟩
    · funext i
      have := congrFun e i
      dsimp only at this
      by_cases hi : i = 0
      · subst hi
        rw [Function.update_self, Function.update_self] at this
        exact add_right_cancel (hs.1 this)
      · rw [Function.update_of_ne hi, Function.update_of_ne hi] at this
        exact add_right_cancel this
    · obtain ⟨u, hu⟩ := hs.2 (t 0)
      refine ⟨fun i => (if i = 0 then u else t i) - rcs i, funext fun i => ?_⟩
      dsimp only
      by_cases hi : i = 0
      · subst hi; rw [Function.update_self, sub_add_cancel, if_pos rfl, hu]
      · rw [Function.update_of_ne hi, sub_add_cancel, if_neg hi]
  have hall : ∀ l : List ((Poseidon.State F T → Poseidon.State F T → Poseidon.State F T) ×
      (Fin T → F)), (∀ r ∈ l, Function.Bijective fun s => r.1 s r.2) →
      Function.Bijective fun s => l.foldl (fun s r => r.1 s r.2) s := by
    intro l
    induction l with
    | nil => intro _; exact Function.bijective_id
    | cons r l ih =>
      intro h
      exact (ih fun r hr => h r (List.mem_cons_of_mem _ hr)).comp (h r List.mem_cons_self)
  refine hall _ fun r hr => ?_
  obtain ⟨f, rcs⟩ := r
  have hf := (List.of_mem_zip hr).1
  simp only [List.mem_append, List.mem_replicate] at hf
  rcases hf with (⟨-, rfl⟩ | ⟨-, rfl⟩) | ⟨-, rfl⟩
  · exact hfull rcs
  · exact hpart rcs
  · exact hfull rcs

end Bijective

/-- **C78**: the permutation of `P128Pow5T3` is a bijection on triples of elements of the Pallas base
field. -/
theorem fp_permute_bijective : Function.Bijective (Poseidon.permute fp) :=
  permute_bijective fp
    (pow_bijective 0x333333333333333333333333333333334e9ee0c9a10a60e2e0f0f3f0cccccccd (by decide +kernel) (by decide +kernel))
    checked_fp.mul_inv

/-- **C78**: the same over the Vesta base field. -/
theorem fq_permute_bijective : Function.Bijective (Poseidon.permute fq) :=
  permute_bijective fq
    (pow_bijective 0x333333333333333333333333333333334e9ee0c9a143ba4ad69f2280cccccccd (by decide +kernel) (by decide +kernel))
    checked_fq.mul_inv

/-! ### The chip -/

/-- **C78**: `P128Pow5T3` over the Pallas base field meets what C42 and C43 ask of a specification,
for every valid configuration of the chip; `hash_ok` then says that the chip computes the hash. -/
theorem fp_good {C S : Type} [DecidableEq C] [DecidableEq S] {cfg : Pow5.Config C S 2} (h : cfg.Ok) :
    Pow5.Good cfg fp :=
  ⟨h, ⟨rfl, rfl⟩, rfl, checked_fp.mul_inv, by decide +kernel⟩

/-- **C78**: the same over the Vesta base field. -/
theorem fq_good {C S : Type} [DecidableEq C] [DecidableEq S] {cfg : Pow5.Config C S 2} (h : cfg.Ok) :
    Pow5.Good cfg fq :=
  ⟨h, ⟨rfl, rfl⟩, rfl, checked_fq.mul_inv, by decide +kernel⟩

/-! ### Cases: the second permutation and the first hash of `test_vectors.rs` -/

example : Poseidon.permute fp
    (matrix pallas [[0x082169eef62efaaf9d9364b1666e4d4c07576bac4994133ffb70fcad738f7a5c,
      0x0dcdb1cf014253b3c78849f2a39cefb0e6772b980e2e5d2aa6bde1f2b386dd1a,
      0x1435a7304e9de2a5d6368e9c7e1fe01f27c7a99b670f59f20f94b63225b869bd]] 0)
    = matrix pallas [[0x21ddae20d1d6227a036952a16129fda2cd878092770c38e77e8a9238832f6ed0,
      0x0d1451eeb8b98c361f1e4809bdf4e549c969c0d094ac79bcd6106f415fa45529,
      0x105bf9ac68bb569d795cbe4430401cc587ab82d9b76f131e2b5dd6e9bb76830d]] 0 := by
  decide +kernel

example : Poseidon.hash fp 2 [0x0000000000000000000000000000000000000000000000000000000000000000,
    0x0000000000000000000000000000000000000000000000000000000000000001]
    = some 0x062ff1c32bb0ef109d6a1bc9399a083eed83c2a7fb54cdbe389d32a011d75883 := by
  decide +kernel

example : Poseidon.permute fq
    (matrix vesta [[0x082169eef62efaaf9d9364b1666e4d4c07576bac494c637e08574279738f7a5c,
      0x0dcdb1cf014253b3c78849f2a39cefb0e6772b980d9efda6c08a6d8ab386dd1a,
      0x1435a7304e9de2a5d6368e9c7e1fe01f27c7a99b667ffa6e296141ca25b869bd]] 0)
    = matrix vesta [[0x0e5e23dec34ae2cb65dc2d33807aba0ca47060c44c856d5f8f72c7df92838fcd,
      0x271b24d4bd6a4d54faf5d1467d1f33787ec0bf7f58d5d4238aaa833c95e553c2,
      0x3464766650675a131a6f464d7fbd5c1ca92c81995eb727c5d12a47f99b33c8b8]] 0 := by
  decide +kernel

example : Poseidon.hash fq 2 [0x0000000000000000000000000000000000000000000000000000000000000000,
    0x0000000000000000000000000000000000000000000000000000000000000001]
    = some 0x15ba96df939d77224664b1e35e194f514e3101097a6b54bff357297085f6684e := by
  decide +kernel

/-- The chip hashes a message of two cells with `P128Pow5T3`. -/
example (cfg : Pow5.Config (Fin 5) (Fin 3) 2) (h : cfg.Ok) (a c : Region.ACell (Fin 5) (ZMod pallas))
    (n : ℕ) : ∃ out n' ops, Pow5.hash cfg fp [a, c] n = some (out, n', ops) ∧
      ∀ G : Region.Grid (Fin 5) (ZMod pallas), Region.Sat (Pow5.gates cfg fp) G ops →
        Poseidon.hash fp 2 [G.at a.cell, G.at c.cell] = some (G.at out.cell) := by
  obtain ⟨out, n', ops, h1, -, -, h4⟩ := Pow5.hash_ok (fp_good h) (by decide) [a, c] (by simp) n
  exact ⟨out, n', ops, h1, fun G hs => (h4 G).1 hs⟩

end Verif.P128
