import Verif.Ecc.Model
import Verif.Region.Lemmas
import Verif.Msm.Props

/-!
# Witnessed points, complete and incomplete addition (C38, C39, C40)
-/

namespace Verif.Ecc

open Verif.Region

variable {C S F : Type} [Field F] {b : F}

/-- The assignment `G` gives the cells of `p` the coordinates of `P`. -/
def Holds (G : Grid C F) (p : EccPoint C F) (P : Pt b) : Prop := enc P = (G.at p.x.cell, G.at p.y.cell)

/-- The witness computed for `p` is `P`. -/
def Val (p : EccPoint C F) (P : Pt b) : Prop := enc P = (p.x.value, p.y.value)

/-! ## Witnessing points -/

namespace WitnessPoint

/-- **C38**: the point gate holds exactly on curve points and `(0, 0)`. -/
theorem gate_point (hg : Good b) (cfg : Config C S) (q : C → ℤ → F) :
    (∀ f ∈ ((gates b cfg : Gates C S F)[0]'(by simp [gates])).2 q, f = 0) ↔
      ∃ P : Pt b, enc P = (q cfg.x 0, q cfg.y 0) := by
  rw [exists_enc_iff hg]
  simp only [gates, List.getElem_cons_zero, List.mem_cons, List.not_mem_nil, or_false, forall_eq_or_imp, forall_eq, mul_eq_zero,
    curveEqn]
  have : q cfg.y 0 ^ 2 - q cfg.x 0 ^ 2 * q cfg.x 0 - b = 0 ↔ q cfg.y 0 ^ 2 = q cfg.x 0 ^ 3 + b :=
    ⟨fun h => by linear_combination h, fun h => by linear_combination h⟩
  rw [this]
  tauto

/-- **C38**: the non-identity gate holds exactly on curve points. -/
theorem gate_nonId (hg : Good b) (cfg : Config C S) (q : C → ℤ → F) :
    (∀ f ∈ ((gates b cfg : Gates C S F)[1]'(by simp [gates])).2 q, f = 0) ↔
      ∃ P : Pt b, P ≠ 0 ∧ enc P = (q cfg.x 0, q cfg.y 0) := by
  simp only [gates, List.getElem_cons_succ, List.getElem_cons_zero, List.mem_singleton, forall_eq, curveEqn]
  constructor
  · intro h
    have h' : q cfg.y 0 ^ 2 = q cfg.x 0 ^ 3 + b := by linear_combination h
    refine ⟨mkPt hg h', fun e => ?_, rfl⟩
    have := congrArg enc e
    simp only [enc_mkPt, enc_zero, Prod.mk.injEq] at this
    exact x_ne_zero hg h' this.1
  · rintro ⟨P, hP, e⟩
    obtain ⟨h, -⟩ := enc_ne_zero hg hP e
    linear_combination h

def pointOps (cfg : Config C S) (P : Pt b) (reg offset : ℕ) : List (Op C S F) :=
  [.enable cfg.qPoint reg offset, .advice ⟨reg, cfg.x, offset⟩ (enc P).1,
    .advice ⟨reg, cfg.y, offset⟩ (enc P).2]

theorem point_run (cfg : Config C S) (P : Pt b) (reg offset n : ℕ) : point cfg P reg offset n
    = some (⟨⟨⟨reg, cfg.x, offset⟩, (enc P).1⟩, ⟨⟨reg, cfg.y, offset⟩, (enc P).2⟩⟩, n,
      pointOps cfg P reg offset) := rfl

/-- **C38** for the chip: whatever the assignment, a witnessed point is the identity or on the
curve, and the honest assignment of any point is accepted. -/
theorem point_spec (hg : Good b) {cfg : Config C S} (hd : cfg.qPoint ≠ cfg.qPointNonId) (P : Pt b)
    (reg offset n : ℕ) :
    ∃ p ops, point cfg P reg offset n = some (p, n, ops) ∧ Val p P ∧
      (∀ G, Sat (gates b cfg) G ops → ∃ P' : Pt b, Holds G p P') ∧
      (∀ G, Honest G ops → Sat (gates b cfg) G ops ∧ Holds G p P) := by
  refine ⟨_, _, point_run cfg P reg offset n, rfl, ?_, ?_⟩
  · intro G hs
    have := hs.gates _ (List.mem_cons_self ..) reg offset (by simp [pointOps])
    obtain ⟨P', h⟩ := (gate_point hg cfg _).1 this
    refine ⟨P', ?_⟩
    simpa [Grid.query, Holds, Grid.at] using h
  · intro G hG
    have hx : G reg cfg.x offset = (enc P).1 := hG.1 ⟨reg, cfg.x, offset⟩ _ (by simp [pointOps])
    have hy : G reg cfg.y offset = (enc P).2 := hG.1 ⟨reg, cfg.y, offset⟩ _ (by simp [pointOps])
    have hh : enc P = (G reg cfg.x offset, G reg cfg.y offset) := by rw [hx, hy]
    refine ⟨⟨?_, ?_, ?_, ?_⟩, hh⟩
    · intro g hg' reg' row hop
      simp only [pointOps, List.mem_cons, Op.enable.injEq, reduceCtorEq, List.not_mem_nil, or_false,
        gates] at hop hg'
      rcases hg' with rfl | rfl
      · obtain ⟨-, rfl, rfl⟩ := hop
        refine (gate_point hg cfg _).2 ⟨P, ?_⟩
        simpa [Grid.query] using hh
      · exact absurd hop.1.symm hd
    · intro a b hop; simp [pointOps] at hop
    · intro a b hop; simp [pointOps] at hop
    · intro a b hop; simp [pointOps] at hop

/-- A constant point is fixed by the circuit. -/
theorem constantPoint_sound {cfg : Config C S} (P : Pt b) (reg offset n : ℕ) :
    ∃ p ops, constantPoint cfg P reg offset n = some (p, n, ops) ∧
      ∀ G, Sat (gates b cfg) G ops → Holds G p P := by
  refine ⟨_, _, rfl, ?_⟩
  intro G hs
  have hx := hs.const ⟨reg, cfg.x, offset⟩ (enc P).1 (by simp)
  have hy := hs.const ⟨reg, cfg.y, offset⟩ (enc P).2 (by simp)
  unfold Holds
  rw [hx, hy]

open Classical in
/-- **C38** for non-identity points: the identity is refused (an error), other points are
accepted, and whatever the assignment the point is on the curve. -/
theorem pointNonId_spec (hg : Good b) {cfg : Config C S} (hd : cfg.qPoint ≠ cfg.qPointNonId)
    (P : Pt b) (reg offset n : ℕ) :
    (P = 0 → pointNonId cfg P reg offset n = none) ∧
    (P ≠ 0 → ∃ p ops, pointNonId cfg P reg offset n = some (p, n, ops) ∧ Val p P ∧
      (∀ G, Sat (gates b cfg) G ops → ∃ P' : Pt b, P' ≠ 0 ∧ Holds G p P') ∧
      (∀ G, Honest G ops → Sat (gates b cfg) G ops ∧ Holds G p P)) := by
  constructor
  · rintro rfl
    unfold pointNonId
    rw [bind_apply]
    have h1 : (enable cfg.qPointNonId reg offset : M C S F Unit) n
      = some ((), n, [.enable cfg.qPointNonId reg offset]) := rfl
    rw [h1]
    dsimp only
    rw [bind_apply]
    have h2 : (assert ((0 : Pt b) ≠ 0) : M C S F Unit) n = none := if_neg (by simp)
    rw [h2]
  · intro hP
    set ops : List (Op C S F) := [.enable cfg.qPointNonId reg offset,
      .advice ⟨reg, cfg.x, offset⟩ (enc P).1, .advice ⟨reg, cfg.y, offset⟩ (enc P).2] with hops
    refine ⟨⟨⟨⟨reg, cfg.x, offset⟩, (enc P).1⟩, ⟨⟨reg, cfg.y, offset⟩, (enc P).2⟩⟩, ops,
      ?_, rfl, ?_, ?_⟩
    · unfold pointNonId
      refine bind_of (a := ()) (n' := n) (ops₁ := [.enable cfg.qPointNonId reg offset]) rfl ?_
      rw [assert_bind hP]
      rfl
    · intro G hs
      have := hs.gates _ (List.mem_cons_of_mem _ (List.mem_singleton.2 rfl)) reg offset (by simp [hops])
      obtain ⟨P', h, h'⟩ := (gate_nonId hg cfg _).1 this
      refine ⟨P', h, ?_⟩
      simpa [Grid.query, Holds, Grid.at] using h'
    · intro G hG
      have hx : G reg cfg.x offset = (enc P).1 := hG.1 ⟨reg, cfg.x, offset⟩ _ (by simp [hops])
      have hy : G reg cfg.y offset = (enc P).2 := hG.1 ⟨reg, cfg.y, offset⟩ _ (by simp [hops])
      have hh : enc P = (G reg cfg.x offset, G reg cfg.y offset) := by rw [hx, hy]
      refine ⟨⟨?_, ?_, ?_, ?_⟩, hh⟩
      · intro g hg' reg' row hop
        simp only [hops, List.mem_cons, Op.enable.injEq, reduceCtorEq, List.not_mem_nil, or_false,
          gates] at hop hg'
        rcases hg' with rfl | rfl
        · exact absurd hop.1 hd
        · obtain ⟨-, rfl, rfl⟩ := hop
          refine (gate_nonId hg cfg _).2 ⟨P, hP, ?_⟩
          simpa [Grid.query] using hh
      · intro a b hop; simp [hops] at hop
      · intro a b hop; simp [hops] at hop
      · intro a b hop; simp [hops] at hop

end WitnessPoint

/-! ## Complete addition -/

namespace Add

variable [DecidableEq F]

theorem inv0 {x : F} : x ≠ 0 → x * x⁻¹ = 1 := mul_inv_cancel₀

/-- **C39**, the gate: for points `P`, `Q` the constraints hold for some auxiliary values exactly
when the output encodes `P + Q`.  First direction. -/
theorem polys_sound (hg : Good b) {P Q : Pt b} {xp yp xq yq xr yr l α β γ δ : F}
    (hP : enc P = (xp, yp)) (hQ : enc Q = (xq, yq))
    (h : ∀ f ∈ polys xp yp xq yq xr yr l α β γ δ, f = 0) : enc (P + Q) = (xr, yr) := by
  simp only [polys, List.mem_cons, List.not_mem_nil, or_false, forall_eq_or_imp, forall_eq] at h
  obtain ⟨h1, h2, h3a, h3b, h3c, h3d, h4a, h4b, h5a, h5b, h6a, h6b⟩ := h
  rcases enc_cases hg P with ⟨rfl, e⟩ | ⟨x, y, hc, rfl⟩
  · -- P = 0
    rw [e] at hP; cases hP
    rw [zero_add, hQ, Prod.mk.injEq]
    constructor
    · linear_combination -h4a
    · linear_combination -h4b
  · cases hP
    have hxp := x_ne_zero hg hc
    rcases enc_cases hg Q with ⟨rfl, e⟩ | ⟨x', y', hc', rfl⟩
    · rw [e] at hQ; cases hQ
      rw [add_zero, enc_mkPt, Prod.mk.injEq]
      constructor
      · linear_combination -h5a
      · linear_combination -h5b
    · cases hQ
      have hxq := x_ne_zero hg hc'
      have hyp := y_ne_zero hg hc
      by_cases hx : xp = xq
      · subst hx
        rcases y_eq_or_neg hc hc' with rfl | rfl
        · -- doubling
          have h2' : 2 * yq * l = 3 * xp ^ 2 := by linear_combination h2
          rw [enc_tangent hg hc h2', Prod.mk.injEq]
          have hyy : xp * xp * (yq + yq) ≠ 0 := by
            rw [← two_mul]
            exact mul_ne_zero (mul_ne_zero hxp hxp) (mul_ne_zero hg.two hyp)
          have ex : l ^ 2 - xp - xp - xr = 0 := (mul_eq_zero.1 h3c).resolve_left hyy
          have ey : l * (xp - xr) - yq - yr = 0 := (mul_eq_zero.1 h3d).resolve_left hyy
          have hxr : xr = l ^ 2 - xp - xp := by linear_combination -ex
          refine ⟨hxr.symm, ?_⟩
          rw [← hxr]; linear_combination ey
        · -- opposite points
          rw [enc_add_neg hg hc hc' rfl (by ring), enc_zero, Prod.mk.injEq]
          constructor
          · linear_combination -h6a
          · linear_combination -h6b
      · -- chord
        have hd : xq - xp ≠ 0 := sub_ne_zero.2 (Ne.symm hx)
        have hl : l * (xq - xp) = yq - yp := by
          have := (mul_eq_zero.1 h1).resolve_left hd
          linear_combination this
        rw [enc_chord hg hc hc' hx hl, Prod.mk.injEq]
        have hxx : xp * xq * (xq - xp) ≠ 0 := mul_ne_zero (mul_ne_zero hxp hxq) hd
        have ex : l ^ 2 - xp - xq - xr = 0 := (mul_eq_zero.1 h3a).resolve_left hxx
        have ey : l * (xp - xr) - yp - yr = 0 := (mul_eq_zero.1 h3b).resolve_left hxx
        have hxr : xr = l ^ 2 - xp - xq := by linear_combination -ex
        refine ⟨hxr.symm, ?_⟩
        rw [← hxr]; linear_combination ey

/-- The values assigned by the chip. -/
theorem polys_complete (hg : Good b) {P Q : Pt b} {xp yp xq yq : F}
    (hP : enc P = (xp, yp)) (hQ : enc Q = (xq, yq)) :
    let l := lambdaOf xp yp xq yq (xq - xp)⁻¹
    let r := resultOf xp yp xq yq l
    enc (P + Q) = r ∧
    ∀ f ∈ polys xp yp xq yq r.1 r.2 l (xq - xp)⁻¹ xp⁻¹ xq⁻¹ (deltaOf xp yp xq yq), f = 0 := by
  intro l r
  have goal : ∀ f ∈ polys xp yp xq yq r.1 r.2 l (xq - xp)⁻¹ xp⁻¹ xq⁻¹ (deltaOf xp yp xq yq), f = 0 := by
    simp only [polys, List.mem_cons, List.not_mem_nil, or_false, forall_eq_or_imp, forall_eq]
    rcases enc_cases hg P with ⟨rfl, e⟩ | ⟨x, y, hc, rfl⟩
    · rw [e] at hP; cases hP
      have hr : r = (xq, yq) := if_pos rfl
      rw [hr]
      rcases enc_cases hg Q with ⟨rfl, e⟩ | ⟨x', y', hc', rfl⟩
      · rw [e] at hQ; cases hQ
        simp
      · cases hQ
        have hxq := x_ne_zero hg hc'
        have hl : l = (yq - 0) * (xq - 0)⁻¹ := if_pos hxq
        have hi := mul_inv_cancel₀ hxq
        rw [hl]
        simp only [sub_zero, hi, zero_mul, sub_self, mul_zero, add_zero, true_and, and_true, mul_one]
        have hd : deltaOf 0 0 xq yq = 0 := if_neg hxq
        rw [hd]
        refine ⟨?_, ?_, ?_⟩
        · rw [show xq * (xq * (yq * xq⁻¹) - yq) = xq * (yq * (xq * xq⁻¹) - yq) by ring, hi]; ring
        · ring
        · ring
    · cases hP
      have hxp := x_ne_zero hg hc
      have hyp := y_ne_zero hg hc
      have hip := mul_inv_cancel₀ hxp
      rcases enc_cases hg Q with ⟨rfl, e⟩ | ⟨x', y', hc', rfl⟩
      · rw [e] at hQ; cases hQ
        have hr : r = (xp, yp) := by
          change resultOf xp yp 0 0 l = _
          unfold resultOf
          rw [if_neg hxp, if_pos rfl]
        have hne : (0 : F) ≠ xp := Ne.symm hxp
        have hl : l = (0 - yp) * (0 - xp)⁻¹ := if_pos hne
        have hd : deltaOf xp yp 0 0 = 0 := if_neg hne
        have hi : (0 - xp) * (0 - xp)⁻¹ = 1 := mul_inv_cancel₀ (by simpa using hxp)
        rw [hr, hd, hl]
        simp only [hi, hip, sub_self, mul_zero, zero_mul, and_true, true_and, sub_zero]
        rw [show (0 - xp) * ((0 - xp) * ((0 - yp) * (0 - xp)⁻¹) - (0 - yp))
          = (0 - xp) * (((0 - xp) * (0 - xp)⁻¹) * (0 - yp) - (0 - yp)) by ring, hi]
        ring
      · cases hQ
        have hxq := x_ne_zero hg hc'
        have hiq := mul_inv_cancel₀ hxq
        by_cases hx : xq = xp
        · subst hx
          have hd : deltaOf xq yp xq yq = (yq + yp)⁻¹ := if_pos rfl
          have hl : l = xq ^ 2 * 3 * (yp⁻¹ * 2⁻¹) := by
            change lambdaOf _ _ _ _ _ = _
            unfold lambdaOf
            rw [if_neg (by simp), if_pos hyp]
          have h2l : 2 * yp * l - 3 * xq ^ 2 = 0 := by
            rw [hl]
            have := hg.two
            field_simp
            try ring
          rcases y_eq_or_neg hc hc' with rfl | rfl
          · have hyy : yq + yq ≠ 0 := by rw [← two_mul]; exact mul_ne_zero hg.two hyp
            have hne : ¬ (xq = xq ∧ yq = -yq) := fun h => hyy (by linear_combination h.2)
            have hr : r = (l ^ 2 - xq - xq, l * (xq - (l ^ 2 - xq - xq)) - yq) := by
              change resultOf _ _ _ _ _ = _
              unfold resultOf
              rw [if_neg hxq, if_neg hxq, if_neg hne]
            rw [hr, hd]
            simp only [h2l, hiq, sub_self, zero_mul, mul_zero, true_and, and_true,
              mul_inv_cancel₀ hyy, sub_zero]
          · have hr : r = (0, 0) := by
              change resultOf _ _ _ _ _ = _
              unfold resultOf
              rw [if_neg hxq, if_neg hxq, if_pos ⟨rfl, rfl⟩]
            rw [hr, hd]
            simp only [h2l, hiq, sub_self, zero_mul, mul_zero, true_and, and_true, neg_add_cancel]
        · have hdn : xq - xp ≠ 0 := sub_ne_zero.2 hx
          have hi := mul_inv_cancel₀ hdn
          have hd : deltaOf xp yp xq yq = 0 := if_neg hx
          have hl : l = (yq - yp) * (xq - xp)⁻¹ := if_pos hx
          have hne : ¬ (xq = xp ∧ yq = -yp) := fun h => hx h.1
          have hr : r = (l ^ 2 - xp - xq, l * (xp - (l ^ 2 - xp - xq)) - yp) := by
            change resultOf _ _ _ _ _ = _
            unfold resultOf
            rw [if_neg hxp, if_neg hxq, if_neg hne]
          have h1 : (xq - xp) * l - (yq - yp) = 0 := by
            rw [hl, show (xq - xp) * ((yq - yp) * (xq - xp)⁻¹) = ((xq - xp) * (xq - xp)⁻¹) * (yq - yp)
              by ring, hi]
            ring
          rw [hr, hd]
          simp only [hip, hiq, hi, h1, sub_self, zero_mul, mul_zero, true_and, and_true]
  exact ⟨polys_sound hg hP hQ goal, goal⟩

/-- **C39**, the gate, both directions. -/
theorem gate_iff (hg : Good b) {P Q : Pt b} {xp yp xq yq xr yr : F}
    (hP : enc P = (xp, yp)) (hQ : enc Q = (xq, yq)) :
    (∃ l α β γ δ, ∀ f ∈ polys xp yp xq yq xr yr l α β γ δ, f = 0) ↔ enc (P + Q) = (xr, yr) := by
  constructor
  · rintro ⟨l, α, β, γ, δ, h⟩
    exact polys_sound hg hP hQ h
  · intro h
    obtain ⟨e, h'⟩ := polys_complete hg hP hQ
    rw [h] at e
    rw [← e] at h'
    exact ⟨_, _, _, _, _, h'⟩

/-- The operations of the chip. -/
def ops (cfg : Config C S) (p q : EccPoint C F) (reg offset : ℕ) : List (Op C S F) :=
  let xp := p.x.value
  let yp := p.y.value
  let xq := q.x.value
  let yq := q.y.value
  let l := lambdaOf xp yp xq yq (xq - xp)⁻¹
  let r := resultOf xp yp xq yq l
  [.enable cfg.qAdd reg offset,
    .advice ⟨reg, cfg.xP, offset⟩ xp, .equal ⟨reg, cfg.xP, offset⟩ p.x.cell,
    .advice ⟨reg, cfg.yP, offset⟩ yp, .equal ⟨reg, cfg.yP, offset⟩ p.y.cell,
    .advice ⟨reg, cfg.xQR, offset⟩ xq, .equal ⟨reg, cfg.xQR, offset⟩ q.x.cell,
    .advice ⟨reg, cfg.yQR, offset⟩ yq, .equal ⟨reg, cfg.yQR, offset⟩ q.y.cell,
    .advice ⟨reg, cfg.alpha, offset⟩ (xq - xp)⁻¹, .advice ⟨reg, cfg.beta, offset⟩ xp⁻¹,
    .advice ⟨reg, cfg.gamma, offset⟩ xq⁻¹, .advice ⟨reg, cfg.delta, offset⟩ (deltaOf xp yp xq yq),
    .advice ⟨reg, cfg.lambda, offset⟩ l,
    .advice ⟨reg, cfg.xQR, (offset + 1 : ℕ)⟩ r.1, .advice ⟨reg, cfg.yQR, (offset + 1 : ℕ)⟩ r.2]

/-- The result of the chip. -/
def out (cfg : Config C S) (p q : EccPoint C F) (reg offset : ℕ) : EccPoint C F :=
  let r := resultOf p.x.value p.y.value q.x.value q.y.value
    (lambdaOf p.x.value p.y.value q.x.value q.y.value (q.x.value - p.x.value)⁻¹)
  ⟨⟨⟨reg, cfg.xQR, (offset + 1 : ℕ)⟩, r.1⟩, ⟨⟨reg, cfg.yQR, (offset + 1 : ℕ)⟩, r.2⟩⟩

theorem run (cfg : Config C S) (p q : EccPoint C F) (reg offset n : ℕ) :
    assignRegion cfg p q reg offset n
      = some (out cfg p q reg offset, n, ops cfg p q reg offset) := rfl

/-- **C39**, soundness of the chip: whatever the assignment, if the inputs hold `P` and `Q` then
the output holds `P + Q`. -/
theorem sound (hg : Good b) {cfg : Config C S} {p q r : EccPoint C F} {reg offset n n' : ℕ}
    {os : List (Op C S F)} (h : assignRegion cfg p q reg offset n = some (r, n', os))
    (G : Grid C F) (hs : Sat (gates cfg) G os) {P Q : Pt b} (hP : Holds G p P) (hQ : Holds G q Q) :
    Holds G r (P + Q) := by
  rw [run] at h
  cases h
  have e1 : G reg cfg.xP offset = G.at p.x.cell :=
    hs.equal ⟨reg, cfg.xP, offset⟩ _ (by simp [ops])
  have e2 : G reg cfg.yP offset = G.at p.y.cell :=
    hs.equal ⟨reg, cfg.yP, offset⟩ _ (by simp [ops])
  have e3 : G reg cfg.xQR offset = G.at q.x.cell :=
    hs.equal ⟨reg, cfg.xQR, offset⟩ _ (by simp [ops])
  have e4 : G reg cfg.yQR offset = G.at q.y.cell :=
    hs.equal ⟨reg, cfg.yQR, offset⟩ _ (by simp [ops])
  have hgate := hs.gates _ (List.mem_singleton.2 rfl) reg offset (by simp [ops])
  simp only [Grid.query, add_zero] at hgate
  rw [e1, e2, e3, e4] at hgate
  have := polys_sound hg hP hQ hgate
  unfold Holds out Grid.at
  simpa using this

/-- **C39**, completeness of the chip: for points `P`, `Q` the assignment made by the chip meets
the constraints, and its output is `P + Q`. -/
theorem complete (hg : Good b) {cfg : Config C S} {p q r : EccPoint C F} {reg offset n n' : ℕ}
    {os : List (Op C S F)} (h : assignRegion cfg p q reg offset n = some (r, n', os))
    {P Q : Pt b} (hP : Val p P) (hQ : Val q Q) :
    Val r (P + Q) ∧ ∀ G, Honest G os → Holds G p P → Holds G q Q →
      Sat (gates cfg) G os ∧ Holds G r (P + Q) := by
  rw [run] at h
  cases h
  obtain ⟨hr, hpoly⟩ := polys_complete hg hP hQ
  refine ⟨hr, fun G hG hp hq => ?_⟩
  have hpx : G.at p.x.cell = p.x.value := by
    have := hp.symm.trans hP; exact congrArg Prod.fst this
  have hpy : G.at p.y.cell = p.y.value := by
    have := hp.symm.trans hP; exact congrArg Prod.snd this
  have hqx : G.at q.x.cell = q.x.value := by
    have := hq.symm.trans hQ; exact congrArg Prod.fst this
  have hqy : G.at q.y.cell = q.y.value := by
    have := hq.symm.trans hQ; exact congrArg Prod.snd this
  have a1 : G reg cfg.xP offset = p.x.value := hG.1 ⟨reg, cfg.xP, offset⟩ _ (by simp [ops])
  have a2 : G reg cfg.yP offset = p.y.value := hG.1 ⟨reg, cfg.yP, offset⟩ _ (by simp [ops])
  have a3 : G reg cfg.xQR offset = q.x.value := hG.1 ⟨reg, cfg.xQR, offset⟩ _ (by simp [ops])
  have a4 : G reg cfg.yQR offset = q.y.value := hG.1 ⟨reg, cfg.yQR, offset⟩ _ (by simp [ops])
  have a5 : G reg cfg.alpha offset = (q.x.value - p.x.value)⁻¹ :=
    hG.1 ⟨reg, cfg.alpha, offset⟩ _ (by simp [ops])
  have a6 : G reg cfg.beta offset = p.x.value⁻¹ := hG.1 ⟨reg, cfg.beta, offset⟩ _ (by simp [ops])
  have a7 : G reg cfg.gamma offset = q.x.value⁻¹ := hG.1 ⟨reg, cfg.gamma, offset⟩ _ (by simp [ops])
  have a8 : G reg cfg.delta offset = deltaOf p.x.value p.y.value q.x.value q.y.value :=
    hG.1 ⟨reg, cfg.delta, offset⟩ _ (by simp [ops])
  have a9 : G reg cfg.lambda offset = lambdaOf p.x.value p.y.value q.x.value q.y.value
      (q.x.value - p.x.value)⁻¹ := hG.1 ⟨reg, cfg.lambda, offset⟩ _ (by simp [ops])
  have a10 : G reg cfg.xQR (offset + 1 : ℕ) = (out cfg p q reg offset).x.value :=
    hG.1 ⟨reg, cfg.xQR, (offset + 1 : ℕ)⟩ _ (by simp [ops, out])
  have a11 : G reg cfg.yQR (offset + 1 : ℕ) = (out cfg p q reg offset).y.value :=
    hG.1 ⟨reg, cfg.yQR, (offset + 1 : ℕ)⟩ _ (by simp [ops, out])
  refine ⟨⟨?_, ?_, ?_, ?_⟩, ?_⟩
  · intro g hg' reg' row hop
    simp only [gates, List.mem_singleton] at hg'
    subst hg'
    simp only [ops, List.mem_cons, Op.enable.injEq, reduceCtorEq, List.not_mem_nil, or_false,
      true_and] at hop
    obtain ⟨rfl, rfl⟩ := hop
    simp only [Grid.query, add_zero]
    push_cast at a10 a11
    rw [a1, a2, a3, a4, a5, a6, a7, a8, a9, a10, a11]
    exact hpoly
  · intro a c hop
    simp only [ops, List.mem_cons, Op.equal.injEq, reduceCtorEq, List.not_mem_nil, or_false,
      false_or] at hop
    rcases hop with ⟨rfl, rfl⟩ | ⟨rfl, rfl⟩ | ⟨rfl, rfl⟩ | ⟨rfl, rfl⟩
    · exact a1.trans hpx.symm
    · exact a2.trans hpy.symm
    · exact a3.trans hqx.symm
    · exact a4.trans hqy.symm
  · intro a c hop; simp [ops] at hop
  · intro a c hop; simp [ops] at hop
  · exact hr.trans (Prod.ext a10.symm a11.symm)

end Add

/-! ## Incomplete addition -/

namespace AddIncomplete

variable [DecidableEq F]

/-- **C40**, the gate: for points with different x-coordinates the constraints hold exactly when
the output encodes `P + Q`. -/
theorem gate_iff (hg : Good b) {P Q : Pt b} {xp yp xq yq xr yr : F} (hP0 : P ≠ 0) (hQ0 : Q ≠ 0)
    (hP : enc P = (xp, yp)) (hQ : enc Q = (xq, yq)) (hx : xp ≠ xq) :
    (∀ f ∈ polys xp yp xq yq xr yr, f = 0) ↔ enc (P + Q) = (xr, yr) := by
  obtain ⟨hc, rfl⟩ := enc_ne_zero hg hP0 hP
  obtain ⟨hc', rfl⟩ := enc_ne_zero hg hQ0 hQ
  have hd : xq - xp ≠ 0 := sub_ne_zero.2 (Ne.symm hx)
  have hi := mul_inv_cancel₀ hd
  set l := (yq - yp) * (xq - xp)⁻¹ with hl
  have hl' : l * (xq - xp) = yq - yp := by
    rw [hl, mul_assoc, mul_comm _ (xq - xp), hi, mul_one]
  rw [enc_chord hg hc hc' hx hl', Prod.mk.injEq]
  simp only [polys, List.mem_cons, List.not_mem_nil, or_false, forall_eq_or_imp, forall_eq]
  constructor
  · rintro ⟨h1, h2⟩
    have e1 : (xq - xp) ^ 2 * (l ^ 2 - xp - xq - xr) = 0 := by
      linear_combination -h1 + (l * (xq - xp) + (yq - yp)) * hl'
    have hxr : l ^ 2 - xp - xq = xr := by
      have := (mul_eq_zero.1 e1).resolve_left (pow_ne_zero _ hd)
      linear_combination this
    refine ⟨hxr, ?_⟩
    rw [hxr]
    have e2 : (xq - xp) * (l * (xp - xr) - yp - yr) = 0 := by
      linear_combination h2 + (xp - xr) * hl'
    have := (mul_eq_zero.1 e2).resolve_left hd
    linear_combination this
  · rintro ⟨h1, h2⟩
    rw [h1] at h2
    constructor
    · linear_combination -(xq - xp) ^ 2 * h1 + (l * (xq - xp) + (yq - yp)) * hl'
    · linear_combination (xq - xp) * h2 - (xp - xr) * hl'

/-- Equal inputs: the gate does not constrain the output at all. -/
theorem gate_double (xp yp xr yr : F) : ∀ f ∈ polys xp yp xp yp xr yr, f = 0 := by
  simp [polys]

/-- Opposite inputs: the gate cannot be met. -/
theorem gate_opposite (hg : Good b) {P : Pt b} {xp yp : F} (hP0 : P ≠ 0) (hP : enc P = (xp, yp))
    (xr yr : F) : ¬ ∀ f ∈ polys xp yp xp (-yp) xr yr, f = 0 := by
  obtain ⟨hc, rfl⟩ := enc_ne_zero hg hP0 hP
  intro h
  have h1 := h _ (List.mem_cons_self ..)
  have hy := y_ne_zero hg hc
  have : (2 * yp) ^ 2 = 0 := by linear_combination -h1
  exact (mul_ne_zero hg.two hy) (pow_eq_zero_iff (two_ne_zero) |>.1 this)

/-- The operations of the chip. -/
def ops (cfg : Config C S) (p q : EccPoint C F) (reg offset : ℕ) : List (Op C S F) :=
  let xp := p.x.value
  let yp := p.y.value
  let xq := q.x.value
  let yq := q.y.value
  let l := (yq - yp) * (xq - xp)⁻¹
  [.enable cfg.qAddIncomplete reg offset,
    .advice ⟨reg, cfg.xP, offset⟩ xp, .equal ⟨reg, cfg.xP, offset⟩ p.x.cell,
    .advice ⟨reg, cfg.yP, offset⟩ yp, .equal ⟨reg, cfg.yP, offset⟩ p.y.cell,
    .advice ⟨reg, cfg.xQR, offset⟩ xq, .equal ⟨reg, cfg.xQR, offset⟩ q.x.cell,
    .advice ⟨reg, cfg.yQR, offset⟩ yq, .equal ⟨reg, cfg.yQR, offset⟩ q.y.cell,
    .advice ⟨reg, cfg.xQR, (offset + 1 : ℕ)⟩ (l ^ 2 - xp - xq),
    .advice ⟨reg, cfg.yQR, (offset + 1 : ℕ)⟩ (l * (xp - (l ^ 2 - xp - xq)) - yp)]

/-- The result of the chip. -/
def out (cfg : Config C S) (p q : EccPoint C F) (reg offset : ℕ) : EccPoint C F :=
  let xp := p.x.value
  let yp := p.y.value
  let xq := q.x.value
  let yq := q.y.value
  let l := (yq - yp) * (xq - xp)⁻¹
  ⟨⟨⟨reg, cfg.xQR, (offset + 1 : ℕ)⟩, l ^ 2 - xp - xq⟩,
    ⟨⟨reg, cfg.yQR, (offset + 1 : ℕ)⟩, l * (xp - (l ^ 2 - xp - xq)) - yp⟩⟩

/-- The inputs the chip refuses. -/
def Exceptional (p q : EccPoint C F) : Prop :=
  (p.x.value = 0 ∧ p.y.value = 0) ∨ (q.x.value = 0 ∧ q.y.value = 0) ∨ p.x.value = q.x.value

theorem run {cfg : Config C S} {p q : EccPoint C F} (reg offset n : ℕ) (h : ¬ Exceptional p q) :
    assignRegion cfg p q reg offset n
      = some (out cfg p q reg offset, n, ops cfg p q reg offset) := by
  unfold assignRegion
  refine bind_of (a := ()) (n' := n) (ops₁ := [.enable cfg.qAddIncomplete reg offset]) rfl ?_
  dsimp only
  have h' : ¬ ((p.x.value = 0 ∧ p.y.value = 0) ∨ (q.x.value = 0 ∧ q.y.value = 0) ∨
      p.x.value = q.x.value) := h
  rw [assert_bind h']
  rfl

theorem run_none {cfg : Config C S} {p q : EccPoint C F} (reg offset n : ℕ) (h : Exceptional p q) :
    assignRegion cfg p q reg offset n = none := by
  unfold assignRegion
  rw [bind_apply]
  have h1 : (enable cfg.qAddIncomplete reg offset : M C S F Unit) n
    = some ((), n, [.enable cfg.qAddIncomplete reg offset]) := rfl
  rw [h1]
  dsimp only
  rw [bind_apply]
  have h2 : (assert (¬ ((p.x.value = 0 ∧ p.y.value = 0) ∨ (q.x.value = 0 ∧ q.y.value = 0) ∨
      p.x.value = q.x.value)) : M C S F Unit) n = none := if_neg (not_not.2 h)
  rw [h2]

/-- **C40**: the chip fails exactly when one of the inputs is the identity or the inputs are equal
or opposite. -/
theorem fails_iff (hg : Good b) {cfg : Config C S} {p q : EccPoint C F} (reg offset n : ℕ)
    {P Q : Pt b} (hP : Val p P) (hQ : Val q Q) :
    assignRegion cfg p q reg offset n = none ↔ P = 0 ∨ Q = 0 ∨ P = Q ∨ P = -Q := by
  have key : Exceptional p q ↔ P = 0 ∨ Q = 0 ∨ P = Q ∨ P = -Q := by
    unfold Exceptional
    have hp0 : (p.x.value = 0 ∧ p.y.value = 0) ↔ P = 0 := by
      constructor
      · rintro ⟨h1, -⟩
        exact enc_eq_zero hg (y := p.y.value) (by rw [show enc P = _ from hP, h1])
      · rintro rfl
        exact ⟨(congrArg Prod.fst hP).symm, (congrArg Prod.snd hP).symm⟩
    have hq0 : (q.x.value = 0 ∧ q.y.value = 0) ↔ Q = 0 := by
      constructor
      · rintro ⟨h1, -⟩
        exact enc_eq_zero hg (y := q.y.value) (by rw [show enc Q = _ from hQ, h1])
      · rintro rfl
        exact ⟨(congrArg Prod.fst hQ).symm, (congrArg Prod.snd hQ).symm⟩
    rw [hp0, hq0]
    by_cases hP0 : P = 0
    · simp [hP0]
    by_cases hQ0 : Q = 0
    · simp [hQ0]
    simp only [hP0, hQ0, false_or]
    obtain ⟨hc, hPe⟩ := enc_ne_zero hg hP0 hP
    obtain ⟨hc', hQe⟩ := enc_ne_zero hg hQ0 hQ
    constructor
    · intro hx
      rw [hx] at hc
      rcases y_eq_or_neg hc hc' with h | h
      · left
        apply enc_injective hg
        rw [hP, hQ, hx, h]
      · right
        apply enc_injective hg
        rw [enc_neg hg, hP, hQ, hx, h]
        simp
    · rintro (h | h)
      · rw [h] at hP
        exact congrArg Prod.fst (hP.symm.trans hQ)
      · rw [h, Val, enc_neg hg, hQ] at hP
        exact (congrArg Prod.fst hP).symm
  rw [← key]
  constructor
  · intro h
    by_contra hn
    rw [run reg offset n hn] at h
    cases h
  · exact run_none reg offset n

/-- **C40**, soundness of the chip: whatever the assignment, if the inputs hold different,
non-opposite, non-identity points then the output holds their sum. -/
theorem sound (hg : Good b) {cfg : Config C S} {p q r : EccPoint C F} {reg offset n n' : ℕ}
    {os : List (Op C S F)} (h : assignRegion cfg p q reg offset n = some (r, n', os))
    (G : Grid C F) (hs : Sat (gates cfg) G os) {P Q : Pt b} (hP : Holds G p P) (hQ : Holds G q Q)
    (hP0 : P ≠ 0) (hQ0 : Q ≠ 0) (hne : P ≠ Q) (hno : P ≠ -Q) : Holds G r (P + Q) := by
  have hex : ¬ Exceptional p q := by
    intro hex
    rw [run_none reg offset n hex] at h
    cases h
  rw [run reg offset n hex] at h
  cases h
  have e1 : G reg cfg.xP offset = G.at p.x.cell :=
    hs.equal ⟨reg, cfg.xP, offset⟩ _ (by simp [ops])
  have e2 : G reg cfg.yP offset = G.at p.y.cell :=
    hs.equal ⟨reg, cfg.yP, offset⟩ _ (by simp [ops])
  have e3 : G reg cfg.xQR offset = G.at q.x.cell :=
    hs.equal ⟨reg, cfg.xQR, offset⟩ _ (by simp [ops])
  have e4 : G reg cfg.yQR offset = G.at q.y.cell :=
    hs.equal ⟨reg, cfg.yQR, offset⟩ _ (by simp [ops])
  have hgate := hs.gates _ (List.mem_singleton.2 rfl) reg offset (by simp [ops])
  simp only [Grid.query, add_zero] at hgate
  rw [e1, e2, e3, e4] at hgate
  obtain ⟨hc, -⟩ := enc_ne_zero hg hP0 hP
  obtain ⟨hc', -⟩ := enc_ne_zero hg hQ0 hQ
  have hx : G.at p.x.cell ≠ G.at q.x.cell := by
    intro hx
    rw [hx] at hc
    rcases y_eq_or_neg hc hc' with h | h
    · exact hne (enc_injective hg (by rw [hP, hQ, hx, h]))
    · refine hno (enc_injective hg ?_)
      rw [enc_neg hg, hP, hQ, hx, h]
      simp
  have := (gate_iff hg hP0 hQ0 hP hQ hx).1 hgate
  unfold Holds out Grid.at
  simpa using this

/-- **C40**, completeness of the chip: where it does not fail, its assignment meets the
constraints and its output is `P + Q`. -/
theorem complete (hg : Good b) {cfg : Config C S} {p q : EccPoint C F} (reg offset n : ℕ)
    {P Q : Pt b} (hP : Val p P) (hQ : Val q Q)
    (hP0 : P ≠ 0) (hQ0 : Q ≠ 0) (hne : P ≠ Q) (hno : P ≠ -Q) :
    ∃ r os, assignRegion cfg p q reg offset n = some (r, n, os) ∧ Val r (P + Q) ∧
      ∀ G, Honest G os → Holds G p P → Holds G q Q → Sat (gates cfg) G os ∧ Holds G r (P + Q) := by
  have hex : ¬ Exceptional p q := by
    intro hex
    have := (fails_iff hg (cfg := cfg) reg offset n hP hQ).1 (run_none reg offset n hex)
    tauto
  have hx : p.x.value ≠ q.x.value := fun h => hex (Or.inr (Or.inr h))
  obtain ⟨hc, hPe⟩ := enc_ne_zero hg hP0 hP
  obtain ⟨hc', hQe⟩ := enc_ne_zero hg hQ0 hQ
  have hd : q.x.value - p.x.value ≠ 0 := sub_ne_zero.2 (Ne.symm hx)
  have hl' : (q.y.value - p.y.value) * (q.x.value - p.x.value)⁻¹ * (q.x.value - p.x.value)
      = q.y.value - p.y.value := by
    rw [mul_assoc, inv_mul_cancel₀ hd, mul_one]
  have hr : Val (out cfg p q reg offset) (P + Q) := by
    have := enc_chord hg hc hc' hx hl'
    rw [hPe, hQe]
    exact this
  refine ⟨_, _, run reg offset n hex, hr, fun G hG hp hq => ?_⟩
  have hpx : G.at p.x.cell = p.x.value := congrArg Prod.fst (hp.symm.trans hP)
  have hpy : G.at p.y.cell = p.y.value := congrArg Prod.snd (hp.symm.trans hP)
  have hqx : G.at q.x.cell = q.x.value := congrArg Prod.fst (hq.symm.trans hQ)
  have hqy : G.at q.y.cell = q.y.value := congrArg Prod.snd (hq.symm.trans hQ)
  have a1 : G reg cfg.xP offset = p.x.value := hG.1 ⟨reg, cfg.xP, offset⟩ _ (by simp [ops])
  have a2 : G reg cfg.yP offset = p.y.value := hG.1 ⟨reg, cfg.yP, offset⟩ _ (by simp [ops])
  have a3 : G reg cfg.xQR offset = q.x.value := hG.1 ⟨reg, cfg.xQR, offset⟩ _ (by simp [ops])
  have a4 : G reg cfg.yQR offset = q.y.value := hG.1 ⟨reg, cfg.yQR, offset⟩ _ (by simp [ops])
  have a10 : G reg cfg.xQR (offset + 1 : ℕ) = (out cfg p q reg offset).x.value :=
    hG.1 ⟨reg, cfg.xQR, (offset + 1 : ℕ)⟩ _ (by simp [ops, out])
  have a11 : G reg cfg.yQR (offset + 1 : ℕ) = (out cfg p q reg offset).y.value :=
    hG.1 ⟨reg, cfg.yQR, (offset + 1 : ℕ)⟩ _ (by simp [ops, out])
  refine ⟨⟨?_, ?_, ?_, ?_⟩, ?_⟩
  · intro g hg' reg' row hop
    simp only [gates, List.mem_singleton] at hg'
    subst hg'
    simp only [ops, List.mem_cons, Op.enable.injEq, reduceCtorEq, List.not_mem_nil, or_false,
      true_and] at hop
    obtain ⟨rfl, rfl⟩ := hop
    simp only [Grid.query, add_zero]
    push_cast at a10 a11
    rw [a1, a2, a3, a4, a10, a11]
    exact (gate_iff hg hP0 hQ0 hP hQ hx).2 hr
  · intro a c hop
    simp only [ops, List.mem_cons, Op.equal.injEq, reduceCtorEq, List.not_mem_nil, or_false,
      false_or] at hop
    rcases hop with ⟨rfl, rfl⟩ | ⟨rfl, rfl⟩ | ⟨rfl, rfl⟩ | ⟨rfl, rfl⟩
    · exact a1.trans hpx.symm
    · exact a2.trans hpy.symm
    · exact a3.trans hqx.symm
    · exact a4.trans hqy.symm
  · intro a c hop; simp [ops] at hop
  · intro a c hop; simp [ops] at hop
  · exact hr.trans (Prod.ext a10.symm a11.symm)

end AddIncomplete

/-! ## Concrete case: `y² = x³ + 5` over `ℤ/7` -/

theorem good7 : Good (5 : ZMod 7) := ⟨by decide, by decide, by decide, by decide⟩

/-- A point of that curve. -/
def ptA : Pt (5 : ZMod 7) := mkPt good7 (x := 3) (y := 2) (by decide)

/-- Another one. -/
def ptB : Pt (5 : ZMod 7) := mkPt good7 (x := 5) (y := 2) (by decide)

example : ptA ≠ 0 ∧ ptB ≠ 0 ∧ ptA ≠ ptB ∧ ptA ≠ -ptB := by
  refine ⟨?_, ?_, ?_, ?_⟩ <;> intro h <;> have := congrArg (fun P => (enc P).1) h <;>
    revert this <;> simp only [ptB, ptA, neg_mkPt, enc_mkPt, enc_zero] <;> decide

/-- The sum computed by the chip: `(3, 2) + (5, 2) = (6, 5)`. -/
example : enc (ptA + ptB) = (6, 5) :=
  (Add.polys_complete good7 (xp := 3) (yp := 2) (xq := 5) (yq := 2) rfl rfl).1.trans
    (by decide +kernel)

/-- The constraints for that sum can be met, and no other output can. -/
example (xr yr : ZMod 7) : (∃ l α β γ δ, ∀ f ∈ Add.polys 3 2 5 2 xr yr l α β γ δ, f = 0) ↔
    enc (ptA + ptB) = (xr, yr) := Add.gate_iff good7 rfl rfl

/-- A configuration with distinct selectors. -/
example : ∃ cfg : WitnessPoint.Config (Fin 2) (Fin 2), cfg.qPoint ≠ cfg.qPointNonId :=
  ⟨⟨0, 1, 0, 1⟩, by decide⟩

end Verif.Ecc
