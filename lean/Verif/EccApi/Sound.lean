import Verif.EccApi.Local
import Verif.EccApi.Spec
import Verif.Mul.Sound
import Verif.MulFixed.Sound
import Verif.MulFixed.BaseComplete

/-!
# Circuits made of the gadget's calls compute what they should (C79)
-/

namespace Verif.EccApi

open Verif.Region Verif.Ecc Verif.MulFixed

variable {C S : Type} {p q : ℕ} [Fact p.Prime] [Fact q.Prime] {b : ZMod p}

/-! ## The configuration -/

/-- All the selectors. -/
def Selectors.all (s : Selectors S) : List S :=
  [s.qPoint, s.qPointNonId, s.qAddIncomplete, s.qAdd, s.hi 0, s.hi 1, s.hi 2, s.lo 0, s.lo 1, s.lo 2,
    s.qMulDecomposeVar, s.qMulOverflow, s.qMulLsb, s.qRunningSum, s.qMulFixedFull, s.qMulFixedShort,
    s.qMulFixedBaseField]

/-- The arguments of `configure` are different columns, and `ConstraintSystem::selector` never returns
the same selector twice. -/
structure Fresh (advices : Fin 10 → C) (lagrangeCoeffs : Fin 8 → C) (fixedZ : C)
    (rangeCheck : LookupRange.Config C S) (s : Selectors S) : Prop where
  cols : (List.ofFn advices ++ fixedZ :: List.ofFn lagrangeCoeffs).Nodup
  sels : (s.all ++ Merkle.rangeSels rangeCheck).Nodup

/-- What the chips require of their configurations. -/
structure Config.Ok (cfg : Config C S) : Prop where
  wp : cfg.witnessPoint.qPoint ≠ cfg.witnessPoint.qPointNonId
  mul : cfg.mul.Ok
  full : cfg.mulFixedFull.super.Configured
  fullDistinct : cfg.mulFixedFull.super.Distinct
  fullSel : cfg.mulFixedFull.qMulFixedFull ∉ cfg.mulFixedFull.super.selectors
  short : cfg.mulFixedShort.super.Configured
  shortDistinct : cfg.mulFixedShort.super.Distinct
  shortSel : cfg.mulFixedShort.qMulFixedShort ∉ cfg.mulFixedShort.super.selectors
  base : cfg.mulFixedBaseField.super.Configured
  baseDistinct : cfg.mulFixedBaseField.Distinct
  mulLookup : cfg.mul.overflow.lookup = cfg.lookup
  baseLookup : cfg.mulFixedBaseField.lookup = cfg.lookup

theorem configure_ok {advices : Fin 10 → C} {lagrangeCoeffs : Fin 8 → C} {fixedZ : C}
    {rangeCheck : LookupRange.Config C S} {s : Selectors S}
    (h : Fresh advices lagrangeCoeffs fixedZ rangeCheck s) :
    (configure advices lagrangeCoeffs fixedZ rangeCheck s).Ok := by
  have ha : Function.Injective advices := List.nodup_ofFn.1 (List.nodup_append.1 h.cols).1
  have hne : ∀ i j, i ≠ j → advices i ≠ advices j := fun i j hij e => hij (ha e)
  have hlk : rangeCheck.Distinct := by
    have := (List.nodup_append.1 h.sels).2.1
    unfold Merkle.rangeSels at this
    refine ⟨?_, ?_, ?_, ?_⟩
    · intro e; simp [e] at this
    · intro e; simp [e] at this
    · intro e; simp [e] at this
    · intro q4 q5 hv
      rw [hv] at this
      simp only [List.cons_append, List.nil_append, List.nodup_cons, List.mem_cons, List.not_mem_nil,
        or_false, not_or] at this
      obtain ⟨⟨a1, a2, a3, a4⟩, ⟨b1, b2, b3⟩, ⟨c1, c2⟩, d1, -⟩ := this
      refine ⟨d1, ?_⟩
      simp only [List.mem_cons, List.not_mem_nil, or_false, forall_eq_or_imp, forall_eq]
      exact ⟨⟨Ne.symm b2, Ne.symm b3⟩, ⟨Ne.symm a3, Ne.symm a4⟩, Ne.symm c1, Ne.symm c2⟩
  have hsel := (List.nodup_append.1 h.sels).1
  have hinj : Function.Injective (fun i : Fin 17 => s.all.get i) := List.nodup_iff_injective_get.1 hsel
  have hsep := (List.nodup_append.1 h.sels).2.2
  have hr3 : [rangeCheck.qLookup, rangeCheck.qRunning, rangeCheck.qBitshift].Nodup := by
    have := (List.nodup_append.1 h.sels).2.1
    exact (List.nodup_append.1 this).1
  have hrm : ∀ x ∈ [rangeCheck.qLookup, rangeCheck.qRunning, rangeCheck.qBitshift],
      x ∈ Merkle.rangeSels rangeCheck := fun x hx => List.mem_append_left _ hx
  have hcfg : (configure advices lagrangeCoeffs fixedZ rangeCheck s).mulFixedFull.super.Configured :=
    ⟨rfl, rfl, rfl, hne _ _ (by decide), hne _ _ (by decide), hne _ _ (by decide), hne _ _ (by decide)⟩
  have hdis : (configure advices lagrangeCoeffs fixedZ rangeCheck s).mulFixedFull.super.Distinct := by
    refine ⟨?_, ?_, ?_⟩
    · have e : (configure advices lagrangeCoeffs fixedZ rangeCheck s).mulFixedFull.super.columns
          = [4, 5, 0, 1, 2, 3].map advices ++ fixedZ :: List.ofFn lagrangeCoeffs := rfl
      rw [e, List.nodup_append]
      refine ⟨List.Nodup.map ha (by decide), (List.nodup_append.1 h.cols).2.1, ?_⟩
      intro a hm c hc
      refine (List.nodup_append.1 h.cols).2.2 a ?_ c hc
      obtain ⟨i, -, rfl⟩ := List.mem_map.1 hm
      exact (List.mem_ofFn' _ _).2 ⟨i, rfl⟩
    · exact List.Nodup.map (l := [0, 1, 2, 3, 5, 6, 7, 8, 4]) ha (by decide)
    · exact List.Nodup.map (l := [13, 3, 2]) hinj (by decide)
  have hs3 : ∀ x ∈ [s.qMulFixedFull, s.qMulFixedShort, s.qMulFixedBaseField],
      x ∉ (configure advices lagrangeCoeffs fixedZ rangeCheck s).mulFixedFull.super.selectors := by
    have e : (configure advices lagrangeCoeffs fixedZ rangeCheck s).mulFixedFull.super.selectors
      = [s.qRunningSum, s.qAdd, s.qAddIncomplete] := rfl
    have e4 : ([s.qRunningSum, s.qAdd, s.qAddIncomplete] ++
        [s.qMulFixedFull, s.qMulFixedShort, s.qMulFixedBaseField]).Nodup :=
      List.Nodup.map (l := [13, 3, 2, 14, 15, 16]) hinj (by decide)
    rw [e]
    intro x hx hm
    exact (List.nodup_append.1 e4).2.2 x hm x hx rfl
  have hcan : ([6, 7, 8].map advices).Nodup := List.Nodup.map ha (by decide)
  refine
    { wp := ?_
      mul := ⟨rfl, hlk, ?_⟩
      full := hcfg
      fullDistinct := hdis
      fullSel := hs3 s.qMulFixedFull (by simp)
      short := hcfg
      shortDistinct := hdis
      shortSel := hs3 s.qMulFixedShort (by simp)
      base := hcfg
      baseDistinct := ⟨hdis, hlk, hcan, ?_, ?_⟩
      mulLookup := rfl
      baseLookup := rfl }
  · intro e
    have e' : s.qPoint = s.qPointNonId := e
    simp [Selectors.all, e'] at hsel
  · have e : ([s.qAdd, s.hi 0, s.hi 1, s.hi 2, s.lo 0, s.lo 1, s.lo 2, s.qMulDecomposeVar, s.qMulLsb,
        s.qMulOverflow] ++ [rangeCheck.qLookup, rangeCheck.qRunning, rangeCheck.qBitshift]).Nodup := by
      rw [List.nodup_append]
      refine ⟨?_, hr3, ?_⟩
      · exact List.Nodup.map (l := [3, 4, 5, 6, 7, 8, 9, 10, 12, 11]) hinj (by decide)
      · intro x hx y hy
        refine hsep x ?_ y (hrm y hy)
        simp only [Selectors.all, List.mem_cons, List.not_mem_nil, or_false] at hx ⊢
        tauto
    exact e
  · intro hm
    rcases List.mem_append.1 hm with hm | hm
    · exact hs3 s.qMulFixedBaseField (by simp) hm
    · exact hsep _ (by simp [Selectors.all, configure]) _ hm rfl
  · intro x hx hm
    have e : (configure advices lagrangeCoeffs fixedZ rangeCheck s).mulFixedBaseField.super.selectors
      = [s.qRunningSum, s.qAdd, s.qAddIncomplete] := rfl
    rw [e] at hx
    refine hsep x ?_ _ hm rfl
    simp only [Selectors.all, List.mem_cons, List.not_mem_nil, or_false] at hx ⊢
    tauto

/-! ## Lookups of a part of a circuit -/

theorem part_lookup {α : Type} {f : M C S (ZMod p) α} (hf : Local f) {n n' : ℕ} {a : α}
    {ops tot : List (Op C S (ZMod p))} (h : f n = some (a, n', ops)) (hpart : PartOf ops tot n n')
    {K : ℕ} {cfg : LookupRange.Config C S} {G : Grid C (ZMod p)}
    (hl : ∀ reg, SatLookup (LookupRange.lookup K cfg) G tot reg) (reg : ℕ) :
    SatLookup (LookupRange.lookup K cfg) G ops reg := by
  by_cases hr : n ≤ reg ∧ reg < n'
  · exact (hpart.lookup hr.1 hr.2 _ _).1 (hl reg)
  · intro row
    refine LookupRange.lookup_off K cfg ?_
    refine if_neg fun hm => hr ((hf n a n' ops h).2 _ hm reg rfl)

/-! ## Agreement of an assignment with values -/

/-- The cells behind the handles hold the values.  Those of the windows of a `ScalarFixed` hold its
digits in base 8. -/
structure Agrees (G : Grid C (ZMod p)) (e : Env C p q) (v : Vals b) : Prop where
  points : List.Forall₂ (Holds G) e.points v.points
  nonIds : List.Forall₂ (fun x P => Holds G x P ∧ P ≠ 0) e.nonIds v.nonIds
  vars : List.Forall₂ (fun x a => G.at x.cell = a) e.vars v.vars
  scalarVars : List.Forall₂ (fun x a => G.at x.cell = a) e.scalarVars v.scalarVars
  scalarsFixed : List.Forall₂ (fun x k => x.windows.map (List.map fun c => G.at c.cell)
    = k.map fun k => (List.range 85).map fun i => ((k / 8 ^ i % 8 : ℕ) : ZMod p))
    e.scalarsFixed v.scalarsFixed
  scalarsShort : List.Forall₂ (fun x m => G.at x.magnitude.cell = m.1 ∧ G.at x.sign.cell = m.2)
    e.scalarsShort v.scalarsShort

theorem Agrees.empty (G : Grid C (ZMod p)) : Agrees G ({} : Env C p q) ({} : Vals b) :=
  ⟨.nil, .nil, .nil, .nil, .nil, .nil⟩

theorem get_of {α β : Type} {R : α → β → Prop} {l : List α} {m : List β} (h : List.Forall₂ R l m)
    {i : ℕ} {a : α} (hi : l[i]? = some a) : ∃ b, m[i]? = some b ∧ R a b := by
  induction h generalizing i with
  | nil => simp at hi
  | cons hab _ ih =>
    cases i with
    | zero => cases hi; exact ⟨_, rfl, hab⟩
    | succ i => exact ih (by simpa using hi)

theorem snoc_of {α β : Type} {R : α → β → Prop} {l : List α} {m : List β} (h : List.Forall₂ R l m)
    {a : α} {b : β} (hab : R a b) : List.Forall₂ R (l ++ [a]) (m ++ [b]) :=
  List.rel_append h (.cons hab .nil)

theorem Agrees.arg {G : Grid C (ZMod p)} {e : Env C p q} {v : Vals b} (h : Agrees G e v) {x : Arg}
    {a : EccPoint C (ZMod p)} (hx : e.arg x = some a) : ∃ P, v.arg x = some P ∧ Holds G a P := by
  cases x with
  | point i => exact get_of h.points hx
  | nonId i =>
    obtain ⟨P, h1, h2, -⟩ := get_of h.nonIds hx
    exact ⟨P, h1, h2⟩

/-! ## The sub-chips -/

theorem digit_of_value {d : ℕ → ℕ} {n : ℕ} (h : ∀ i < n, d i < 8) : ∀ i < n,
    value d n / 8 ^ i % 8 = d i := by
  induction n with
  | zero => intro i hi; omega
  | succ n ih =>
    intro i hi
    have ih' := ih fun j hj => h j (by omega)
    have hlt : value d n < 8 ^ n := value_lt fun j hj => h j (by omega)
    rw [value]
    by_cases hin : i = n
    · subst hin
      rw [Nat.add_mul_div_right _ _ (by positivity), Nat.div_eq_of_lt hlt, zero_add,
        Nat.mod_eq_of_lt (h i (by omega))]
    · have hin' : i < n := by omega
      have e : d n * 8 ^ n = 8 ^ i * (8 * (8 ^ (n - 1 - i) * d n)) := by
        have : 8 ^ n = 8 ^ i * (8 * 8 ^ (n - 1 - i)) := by
          rw [← pow_succ', ← pow_add]; congr 1; omega
        rw [this]; ring
      rw [e, Nat.add_mul_div_left _ _ (by positivity), Nat.add_mul_mod_self_left]
      exact ih' i hin'

/-- An incomplete addition of opposite points is rejected. -/
theorem addIncomplete_opposite (hg : Good b) {cfg : AddIncomplete.Config C S}
    {x y r : EccPoint C (ZMod p)} {reg n n' : ℕ} {ops : List (Op C S (ZMod p))}
    (h : AddIncomplete.assignRegion cfg x y reg 0 n = some (r, n', ops)) {G : Grid C (ZMod p)}
    (hs : Sat (AddIncomplete.gates cfg) G ops) {P Q : Pt b} (hP : Holds G x P) (hQ : Holds G y Q)
    (hP0 : P ≠ 0) : P ≠ -Q := by
  rintro rfl
  have hQ0 : Q ≠ 0 := fun e => hP0 (by rw [e, neg_zero])
  have hex : ¬ AddIncomplete.Exceptional x y := by
    intro hex
    rw [AddIncomplete.run_none reg 0 n hex] at h
    cases h
  rw [AddIncomplete.run reg 0 n hex] at h
  cases h
  have e1 : G reg cfg.xP (0 : ℕ) = G.at x.x.cell :=
    hs.equal ⟨reg, cfg.xP, (0 : ℕ)⟩ _ (by simp [AddIncomplete.ops])
  have e2 : G reg cfg.yP (0 : ℕ) = G.at x.y.cell :=
    hs.equal ⟨reg, cfg.yP, (0 : ℕ)⟩ _ (by simp [AddIncomplete.ops])
  have e3 : G reg cfg.xQR (0 : ℕ) = G.at y.x.cell :=
    hs.equal ⟨reg, cfg.xQR, (0 : ℕ)⟩ _ (by simp [AddIncomplete.ops])
  have e4 : G reg cfg.yQR (0 : ℕ) = G.at y.y.cell :=
    hs.equal ⟨reg, cfg.yQR, (0 : ℕ)⟩ _ (by simp [AddIncomplete.ops])
  have hgate := hs.gates _ (List.mem_singleton.2 rfl) reg (0 : ℕ) (by simp [AddIncomplete.ops])
  simp only [Grid.query, add_zero] at hgate
  rw [e1, e2, e3, e4] at hgate
  have hh : enc (-Q) = (G.at x.x.cell, G.at x.y.cell) := hP
  have hh' : enc Q = (G.at y.x.cell, G.at y.y.cell) := hQ
  have hn := enc_neg hg Q
  rw [hh, hh'] at hn
  simp only [Prod.mk.injEq] at hn
  rw [hn.1, hn.2] at hgate hh
  have := AddIncomplete.gate_opposite hg hP0 hh (G reg cfg.xQR 1) (G reg cfg.yQR 1)
  rw [neg_neg] at this
  refine this ?_
  simpa using hgate

/-- The multiplication with the four missing copy constraints. -/
theorem mul_sound (hp : 2 ^ 254 < p) (hg : Good b) {cfg : Mul.Config C S} (hok : cfg.Ok)
    (hq : Mul.order.Prime) (hord : ∀ P : Pt b, Mul.order • P = 0) {k : ACell C (ZMod p)}
    {x r : EccPoint C (ZMod p)} {n n' : ℕ} {ops tot : List (Op C S (ZMod p))}
    (h : mul true cfg k x n = some (r, n', ops)) (hpart : PartOf ops tot n n') {G : Grid C (ZMod p)}
    (hs : Sat (Mul.gates cfg) G tot)
    (hl : ∀ reg, SatLookup (LookupRange.lookup 10 cfg.overflow.lookup) G tot reg) {P : Pt b}
    (hP : Holds G x P) (hP0 : P ≠ 0) : Holds G r ((G.at k.cell).val • P) := by
  have hlk := part_lookup (mul_local true cfg k x) h hpart hl
  replace hs : Sat (Mul.gates cfg) G ops := hs.mono (fun _ h => h) hpart.sub
  have hpart' := PartOf.self ops n n'
  unfold mul at h
  obtain ⟨r', n1, o1, o2, h1, h2, rfl⟩ := bind_some h
  cases h2
  obtain ⟨q1, -⟩ := PartOf.bind (g := (do
      Region.constrainEqual ⟨n, cfg.hi.da.xP, 2⟩ x.x.cell
      Region.constrainEqual ⟨n, cfg.hi.yP, 2⟩ x.y.cell
      Region.constrainEqual ⟨n, cfg.lo.da.xP, 2⟩ x.x.cell
      Region.constrainEqual ⟨n, cfg.lo.yP, 2⟩ x.y.cell : M C S (ZMod p) Unit)) (Mul.assign_local cfg k x)
    (Local.constrainEqual.bind fun _ => Local.constrainEqual.bind fun _ =>
      Local.constrainEqual.bind fun _ => Local.constrainEqual) h1 rfl hpart'
  have e1 : G n cfg.hi.da.xP 2 = G.at x.x.cell := hs.equal ⟨n, cfg.hi.da.xP, 2⟩ _ (by simp)
  have e2 : G n cfg.hi.yP 2 = G.at x.y.cell := hs.equal ⟨n, cfg.hi.yP, 2⟩ _ (by simp)
  have e3 : G n cfg.lo.da.xP 2 = G.at x.x.cell := hs.equal ⟨n, cfg.lo.da.xP, 2⟩ _ (by simp)
  have e4 : G n cfg.lo.yP 2 = G.at x.y.cell := hs.equal ⟨n, cfg.lo.yP, 2⟩ _ (by simp)
  refine Mul.assign_sound_partial hp hg hok hq h1 G hs.left
    (part_lookup (Mul.assign_local cfg k x) h1 q1 hlk) hP hP0 (hord P) ?_ ?_
  · rw [e1, e2]; exact hP
  · rw [e3, e4]; exact hP

end Verif.EccApi
