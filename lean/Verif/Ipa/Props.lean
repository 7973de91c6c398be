import Verif.Ipa.Lemmas

/-!
# C24: honest openings verify
-/

namespace Verif.Ipa

open Verif.Msm Verif.Transcript Verif.Multicore Verif.PolyArith Verif.Vanishing

variable {F K A : Type} [Field F] [DecidableEq F] [Field K] [LinearOrder K] [AddCommGroup A]
  [Module F A] {Good : List F → Prop} {tr : List F}

theorem _root_.Verif.Transcript.Sim.mapR {α β γ : Type} {w : W F α} {r : R F β}
    {Q : α → β → List F → Prop} {Q' : α → γ → List F → Prop} (f : β → γ) (h : Sim Good tr w r Q)
    (hQ : ∀ a b t, Q a b t → Q' a (f b) t) : Sim Good tr w (r >>= fun b => pure (f b)) Q' where
  grows := h.grows
  run abs out a st' hw hg := by
    obtain ⟨p, b, h1, h2, h3⟩ := h.run _ _ _ _ hw hg
    exact ⟨p, f b, h1, fun rest => by rw [bind_run (h2 rest)]; rfl, hQ _ _ _ h3⟩

theorem rounds_grows (threads : ℕ) (e : Enc F K A) (pr : Params A) (z : F) (rand : ℕ → F × F)
    (m j : ℕ) (p b : List F) (g : List A) (f : F) :
    Grows (rounds threads e pr z rand m j p b g f) := by
  induction m generalizing j p b g f with
  | zero => exact Grows.pure _
  | succ m ih =>
    unfold rounds
    refine (Grows.panics _).bind fun _ => (Grows.panics _).bind fun _ => (Grows.panics _).bind
      fun _ => (Grows.panics _).bind fun _ => (Grows.panics _).bind fun _ => (Grows.panics _).bind
      fun _ => (Grows.writePoint _ _).bind fun _ => (Grows.writePoint _ _).bind fun _ =>
      (Grows.squeeze _).bind fun _ => (Grows.panics _).bind fun _ => (Grows.panics _).bind
      fun _ => ih _ _ _ _ _

/-- One round of the argument. -/
theorem round_algebra (u z lr rr f : F) (hu : u ≠ 0) (m : ℕ) (p b : List F) (g : List A)
    (U V : A) (hp : p.length = 2 ^ (m + 1)) (hb : b.length = 2 ^ (m + 1))
    (hg : g.length = 2 ^ (m + 1)) :
    let half := 2 ^ m
    let L := dot (p.drop half) (g.take half) + ((dot (p.drop half) (b.take half) * z) • U + lr • V)
    let R := dot (p.take half) (g.drop half) + ((dot (p.take half) (b.drop half) * z) • U + rr • V)
    let p' := List.zipWith (fun lo hi => lo + hi * u⁻¹) (p.take half) (p.drop half)
    let b' := List.zipWith (fun lo hi => lo + hi * u) (b.take half) (b.drop half)
    let g' := List.zipWith (fun lo hi => lo + u • hi) (g.take half) (g.drop half)
    dot p' g' + (z * dot p' b') • U + (f + lr * u⁻¹ + rr * u) • V
      = dot p g + (z * dot p b) • U + f • V + (u⁻¹ • L + u • R) := by
  intro half L R p' b' g'
  have hle : 2 ^ (m + 1) = half + half := by rw [pow_succ]; omega
  have hb' : b' = List.zipWith (fun lo hi => lo + u • hi) (b.take half) (b.drop half) := by
    simp only [b', smul_eq_mul, mul_comm u]
  have h1 : dot p' g' = _ := dot_collapse u⁻¹ u (p.take half) (p.drop half) (g.take half)
    (g.drop half) (by simp [hp]; omega) (by simp [hp, hg]) (by simp [hp, hg]; omega)
  have h2 := dot_collapse u⁻¹ u (p.take half) (p.drop half) (b.take half)
    (b.drop half) (by simp [hp]; omega) (by simp [hp, hb]) (by simp [hp, hb]; omega)
  rw [← hb'] at h2
  change dot p' b' = _ at h2
  rw [h1, h2, dot_split p g half (by rw [hp, hg]), dot_split p b half (by rw [hp, hb])]
  simp only [L, R]
  rw [inv_mul_cancel₀ hu]
  simp only [smul_eq_mul, one_mul, one_smul]
  module

theorem rounds_sim (hG : Closed Good) (threads : ℕ) (ht : threads ≠ 0) {e : Enc F K A}
    (he : e.Valid) (pr : Params A) (z : F) (rand : ℕ → F × F) (m j : ℕ) (p b : List F)
    (g : List A) (f : F) (hp : p.length = 2 ^ m) (hb : b.length = 2 ^ m) (hg : g.length = 2 ^ m) :
    Sim Good tr (rounds threads e pr z rand m j p b g f) (readRounds e m) fun a rs _ =>
      ∃ c f', a = ([c], f') ∧ rs.length = m ∧
        dot p g + (z * dot p b) • pr.u + f • pr.w
          + (rs.map fun r => r.2.2⁻¹ • r.1 + r.2.2 • r.2.1).sum
        = c • dot (sOf (rs.map fun r => r.2.2)) g
          + (z * (c * dot (sOf (rs.map fun r => r.2.2)) b)) • pr.u + f' • pr.w := by
  induction m generalizing j p b g f tr with
  | zero =>
    obtain ⟨c, rfl⟩ := List.length_eq_one_iff.1 hp
    refine Sim.pure _ _ fun _ => ⟨c, f, rfl, rfl, ?_⟩
    obtain ⟨b₀, rfl⟩ := List.length_eq_one_iff.1 hb
    obtain ⟨g₀, rfl⟩ := List.length_eq_one_iff.1 hg
    simp [sOf, dot]
  | succ m ih =>
    have hle : 2 ^ (m + 1) = 2 ^ m + 2 ^ m := by rw [pow_succ]; omega
    unfold rounds readRounds
    dsimp only
    rw [multiexp_eq (p.drop (2 ^ m)) (g.take (2 ^ m)) (by simp [hp, hg]; omega),
      multiexp_eq (p.take (2 ^ m)) (g.drop (2 ^ m)) (by simp [hp, hg]; omega),
      computeInnerProduct_dot (p.drop (2 ^ m)) (b.take (2 ^ m)) (by simp [hp, hb]; omega),
      computeInnerProduct_dot (p.take (2 ^ m)) (b.drop (2 ^ m)) (by simp [hp, hb]; omega)]
    refine Sim.panicsW fun l hl => Sim.panicsW fun r hr => Sim.panicsW fun vl hvl =>
      Sim.panicsW fun vr hvr => ?_
    cases hl; cases hr; cases hvl; cases hvr
    refine Sim.panicsW fun l hl => Sim.panicsW fun r hr => ?_
    rw [multiexp_eq _ _ (by rfl)] at hl hr
    simp only [dot_cons, dot_nil, add_zero, Option.some.injEq] at hl hr
    subst hl hr
    refine (Sim.writePoint he _).mapErr.bind hG (fun _ tr' abs out c st' h => by
      revert h
      exact ((Grows.writePoint _ _).bind fun _ => (Grows.squeeze _).bind fun _ =>
        (Grows.panics _).bind fun _ => (Grows.panics _).bind fun _ =>
          rounds_grows _ _ _ _ _ _ _ _ _ _ _) tr' abs out c st') ?_
    rintro _ _ t1 _ ⟨rfl, -, -⟩
    refine (Sim.writePoint he _).mapErr.bind hG (fun _ tr' abs out c st' h => by
      revert h
      exact ((Grows.squeeze _).bind fun _ =>
        (Grows.panics _).bind fun _ => (Grows.panics _).bind fun _ =>
          rounds_grows _ _ _ _ _ _ _ _ _ _ _) tr' abs out c st') ?_
    rintro _ _ t2 _ ⟨rfl, -, -⟩
    refine (Sim.squeeze he).bind hG (fun _ tr' abs out c st' h => by
      revert h
      exact ((Grows.panics _).bind fun _ => (Grows.panics _).bind fun _ =>
          rounds_grows _ _ _ _ _ _ _ _ _ _ _) tr' abs out c st') ?_
    rintro _ u t3 _ ⟨rfl, -, -⟩
    refine Sim.panicsW fun uInv hu => ?_
    split_ifs at hu with hu0
    cases hu
    obtain ⟨g', hg1, hg2⟩ := generatorCollapse_eq threads ht g u m hg
    refine Sim.panicsW fun g'' hg'' => ?_
    rw [hg1] at hg''
    cases hg''
    rw [hg2]
    refine Sim.mapR _ (ih (j + 1) _ _ _ _ (by simp [hp]; omega) (by simp [hb]; omega)
      (by simp [hg]; omega)) ?_
    rintro _ rs t ⟨c, f', rfl, h1, h2⟩
    refine ⟨c, f', rfl, by simp [h1], ?_⟩
    have h3 := round_algebra u z (rand j).1 (rand j).2 f hu0 m p b g pr.u pr.w hp hb hg
    dsimp only at h3
    rw [h3] at h2
    simp only [List.map_cons, List.sum_cons]
    have h4 : ∀ {B : Type} [AddCommGroup B] [Module F B] (l : List B), l.length = 2 ^ (m + 1) →
        dot (sOf (rs.map fun r => r.2.2))
          (List.zipWith (fun lo hi => lo + u • hi) (l.take (2 ^ m)) (l.drop (2 ^ m)))
          = dot (sOf (u :: rs.map fun r => r.2.2)) l := by
      intro B _ _ l hl
      rw [dot_zipWith_right _ _ _ _ (by simp [sOf_length, hl, h1]; omega)
        (by simp [sOf_length, hl, h1]; omega), dot_sOf_cons]
      simp [h1]
    have h5 : (List.zipWith (fun lo hi => lo + hi * u) (b.take (2 ^ m)) (b.drop (2 ^ m)))
        = List.zipWith (fun lo hi => lo + u • hi) (b.take (2 ^ m)) (b.drop (2 ^ m)) := by
      simp only [smul_eq_mul, mul_comm u]
    rw [h5, h4 g hg, h4 b hb] at h2
    rw [← h2]
    abel

theorem subHead_spec (l l' : List F) (x : F) (h : subHead l x = some l') :
    l'.length = l.length ∧ (∀ y, evalPolynomial l' y = evalPolynomial l y - x) ∧
      ∀ g : List A, dot l' g = dot l g - (if l = [] then 0 else x • g.headD 0) := by
  cases l with
  | nil => cases h
  | cons a t =>
    cases h
    refine ⟨rfl, fun y => ?_, fun g => ?_⟩
    · rw [evalPolynomial_eq, evalPolynomial_eq]; simp; ring
    · cases g with
      | nil => simp [dot]
      | cons b g => simp only [dot_cons, List.headD_cons, if_neg (List.cons_ne_nil _ _)]; module

theorem createProof_grows (threads : ℕ) (e : Enc F K A) (pr : Params A) (rand : Random F)
    (p : List F) (r x : F) : Grows (createProof threads e pr rand p r x) := by
  unfold createProof
  refine (Grows.panics _).bind fun _ => (Grows.panics _).bind fun _ => (Grows.panics _).bind
    fun _ => (Grows.writePoint _ _).bind fun _ => (Grows.squeeze _).bind fun _ =>
    (Grows.squeeze _).bind fun _ => (Grows.panics _).bind fun _ => (Grows.panics _).bind fun _ =>
    (Grows.panics _).bind fun _ => (Grows.panics _).bind fun _ =>
    (rounds_grows _ _ _ _ _ _ _ _ _ _ _).bind fun _ => (Grows.panics _).bind fun _ =>
    (Grows.panics _).bind fun _ => (Grows.writeScalar _ _).bind fun _ => Grows.writeScalar _ _

/-- Adding the rounds. -/
theorem holds_rounds {cv : Coords K A} (hv : cv.Valid) {pr : Params A} (rs : List (A × A × F))
    {m : MSM F K} {v : A} (h : Holds cv pr m v) :
    ∃ m', appendRounds cv m (rs.zip (rs.map fun r => r.2.2⁻¹)) = some m' ∧
      Holds cv pr m' (v + (rs.map fun r => r.2.2⁻¹ • r.1 + r.2.2 • r.2.1).sum) := by
  induction rs generalizing m v with
  | nil => exact ⟨m, rfl, by simpa using h⟩
  | cons r rs ih =>
    obtain ⟨l, r, u⟩ := r
    obtain ⟨m₁, h1, h2⟩ := holds_append hv h u⁻¹ l
    obtain ⟨m₂, h3, h4⟩ := holds_append hv h2 u r
    obtain ⟨m₃, h5, h6⟩ := ih h4
    refine ⟨m₃, ?_, ?_⟩
    · simp only [List.map_cons, List.zip_cons_cons, appendRounds, h1, h3, Option.bind_some]
      exact h5
    · simp only [List.map_cons, List.sum_cons]
      have : v + (u⁻¹ • l + u • r + (rs.map fun r => r.2.2⁻¹ • r.1 + r.2.2 • r.2.1).sum)
        = v + u⁻¹ • l + u • r + (rs.map fun r => r.2.2⁻¹ • r.1 + r.2.2 • r.2.1).sum := by abel
      rw [this]; exact h6

/-- Parameters whose generators match `k`, as `Params::new` and `Params::read` return them. -/
structure ParamsOk (pr : Params A) : Prop where
  n_eq : pr.n = 2 ^ pr.k
  g_len : pr.g.length = pr.n

theorem ParamsOk.ok {pr : Params A} (h : ParamsOk pr) : pr.Ok :=
  ⟨h.g_len, by rw [h.n_eq]; positivity⟩

/-- The guard an honest proof leads to: its accumulator together with `[-c] ⟨s(u), g⟩`
vanishes. -/
def GuardOk (e : Enc F K A) (pr : Params A) (gd : Guard F K) : Prop :=
  gd.u.length = pr.k ∧
    ∃ v, Holds e.toCoords pr gd.msm v ∧ v + gd.negC • dot (sOf gd.u) pr.g = 0

theorem createProof_sim (hG : Closed Good) (threads : ℕ) (ht : threads ≠ 0) {e : Enc F K A}
    (he : e.Valid) (pr : Params A) (hpr : ParamsOk pr) (rand : Random F) (p : List F) (r x v : F)
    (msm : MSM F K) (hm : Holds e.toCoords pr msm (dot p pr.g + r • pr.w))
    (hv : v = evalPolynomial p x) :
    Sim Good tr (createProof threads e pr rand p r x) (verifyProof e pr msm x v)
      fun _ gd _ => GuardOk e pr gd := by
  have hn : 0 < pr.n := hpr.ok.pos
  obtain ⟨msm₁, hm1, hm2⟩ := holds_constant hpr.ok hm (-v)
  unfold createProof verifyProof
  refine Sim.panicsW fun _ hlen => ?_
  split_ifs at hlen with hpn
  refine Sim.panicsW fun sP hsP => Sim.panicsW fun sC hsC => Sim.panicsR hm1 ?_
  obtain ⟨hs1, hs2, -⟩ := subHead_spec (A := A) _ _ _ hsP
  simp only [List.length_map, List.length_range] at hs1
  have hsC' : sC = dot sP pr.g + rand.sBlind • pr.w := by
    unfold Params.commit at hsC
    rw [Commitment.multiexp_append, if_pos (by rw [hs1, hpn, hpr.g_len])] at hsC
    exact (Option.some.inj hsC).symm
  refine (Sim.writePoint he _).mapErr.bind hG (fun _ tr' abs out c st' h => by
    revert h
    exact ((Grows.squeeze _).bind fun _ =>
      (Grows.squeeze _).bind fun _ => (Grows.panics _).bind fun _ => (Grows.panics _).bind fun _ =>
      (Grows.panics _).bind fun _ => (Grows.panics _).bind fun _ =>
      (rounds_grows _ _ _ _ _ _ _ _ _ _ _).bind fun _ => (Grows.panics _).bind fun _ =>
      (Grows.panics _).bind fun _ => (Grows.writeScalar _ _).bind fun _ => Grows.writeScalar _ _)
      tr' abs out c st') ?_
  rintro _ sC t1 _ ⟨rfl, -, -⟩
  refine (Sim.squeeze he).bind hG (fun _ tr' abs out c st' h => by
    revert h
    exact (
      (Grows.squeeze _).bind fun _ => (Grows.panics _).bind fun _ => (Grows.panics _).bind fun _ =>
      (Grows.panics _).bind fun _ => (Grows.panics _).bind fun _ =>
      (rounds_grows _ _ _ _ _ _ _ _ _ _ _).bind fun _ => (Grows.panics _).bind fun _ =>
      (Grows.panics _).bind fun _ => (Grows.writeScalar _ _).bind fun _ => Grows.writeScalar _ _)
      tr' abs out c st') ?_
  rintro _ xi t2 _ ⟨rfl, -, -⟩
  obtain ⟨msm₂, hm3, hm4⟩ := holds_append he.coords_valid hm2 xi sC
  refine Sim.panicsR hm3 ?_
  refine (Sim.squeeze he).bind hG (fun _ tr' abs out c st' h => by
    revert h
    exact ((Grows.panics _).bind fun _ => (Grows.panics _).bind fun _ =>
      (Grows.panics _).bind fun _ => (Grows.panics _).bind fun _ =>
      (rounds_grows _ _ _ _ _ _ _ _ _ _ _).bind fun _ => (Grows.panics _).bind fun _ =>
      (Grows.panics _).bind fun _ => (Grows.writeScalar _ _).bind fun _ => Grows.writeScalar _ _)
      tr' abs out c st') ?_
  rintro _ z t3 _ ⟨rfl, -, -⟩
  have hsne : sP ≠ [] := by intro h; rw [h] at hs1; simp at hs1; omega
  have hmul : polyMul threads sP xi = some (sP.map (· * xi)) := by
    unfold polyMul; exact Domain.parallelize_map threads ht _ hsne _
  rw [hmul]
  refine Sim.panicsW fun _ h => ?_
  cases h
  rw [polyAdd_eq threads ht _ _ (by simpa using hsne) (by simp [hs1])]
  refine Sim.panicsW fun _ h => ?_
  cases h
  refine Sim.panicsW fun pP hpP => ?_
  obtain ⟨hp1, hp2, hp3⟩ := subHead_spec (A := A) _ _ _ hpP
  have hp1' : pP.length = pr.n := by rw [hp1]; simp [hs1, hpn]
  have hz : List.zipWith (· + ·) (sP.map (· * xi)) p ≠ [] := by
    intro h; rw [h] at hp1; simp at hp1; rw [hp1] at hp1'; simp at hp1'; omega
  -- the value of the combined polynomial is the claimed one
  have hval : evalPolynomial (List.zipWith (· + ·) (sP.map (· * xi)) p) x = v := by
    have h0 := hs2 x
    rw [sub_self] at h0
    rw [evalPolynomial_eq, toPoly_zipWith_add (by simp [hs1]), toPoly_map_mul,
      Polynomial.eval_add, Polynomial.eval_mul, ← evalPolynomial_eq, h0, hv, evalPolynomial_eq]
    simp
  have hroot : evalPolynomial pP x = 0 := by rw [hp2, sub_self]
  have hdot : dot pP pr.g = xi • dot sP pr.g + dot p pr.g - v • pr.g.headD 0 := by
    rw [hp3, if_neg hz, hval, dot_zipWith_add _ _ _ (by simp [hs1]), dot_map_mul]
  refine Sim.panicsW fun _ _ => ?_
  refine (rounds_sim hG threads ht he pr z rand.round pr.k 0 pP (powersFrom x (2 ^ pr.k) 1) pr.g
    (rand.sBlind * xi + r) (by rw [hp1', hpr.n_eq]) (powersFrom_length _ _ _)
    (by rw [hpr.g_len, hpr.n_eq])).bind hG (fun _ tr' abs out c st' h => by
    revert h
    exact ((Grows.panics _).bind fun _ =>
      (Grows.panics _).bind fun _ => (Grows.writeScalar _ _).bind fun _ => Grows.writeScalar _ _)
      tr' abs out c st') ?_
  rintro _ rs t4 _ ⟨c, f, rfl, hrl, heq⟩
  rw [dot_powersFrom _ _ _ _ (by rw [hp1', hpr.n_eq]), hroot, hdot] at heq
  rw [dot_powersFrom _ _ _ _ (by rw [sOf_length]; simp [hrl])] at heq
  have hinv : Assigned.batchInvert (rs.map fun r => r.2.2) = some (rs.map fun r => r.2.2⁻¹) := by
    rw [Assigned.batchInvert_eq, List.map_map]; rfl
  obtain ⟨msm₃, hm5, hm6⟩ := holds_rounds he.coords_valid rs hm4
  refine Sim.panicsW fun _ _ => Sim.panicsW fun c' hc => ?_
  cases hc
  refine Sim.panicsR hinv (Sim.panicsR hm5 ?_)
  refine (Sim.writeScalar he _).mapErr.bind hG (fun _ => Grows.writeScalar _ _) ?_
  rintro _ c t5 _ ⟨rfl, -⟩
  refine Sim.mapR _ (Sim.writeScalar he _).mapErr ?_
  rintro _ f t6 ⟨rfl, -⟩
  refine ⟨by simp [hrl], _, holds_w (holds_u hm6 _) _, ?_⟩
  dsimp only
  rw [computeB_eq]
  generalize (rs.map fun r => r.2.2⁻¹ • r.1 + r.2.2 • r.2.1).sum = S at heq ⊢
  generalize dot (sOf (rs.map fun r => r.2.2)) pr.g = G at heq ⊢
  generalize evalPolynomial (sOf (rs.map fun r => r.2.2)) x = B at heq ⊢
  rw [hsC']
  have : S = (c • G + (z * (c * (1 * B))) • pr.u + f • pr.w)
      - (xi • dot sP pr.g + dot p pr.g - v • pr.g.headD 0 + (z * (1 * 0)) • pr.u
        + (rand.sBlind * xi + r) • pr.w) := by
    rw [← heq]; abel
  rw [this]
  module

/-! ## Guards -/

/-- `use_challenges` panics exactly for `k = 0`; otherwise it adds `[-c] ⟨s(u), g⟩`. -/
theorem useChallenges_spec {e : Enc F K A} {pr : Params A} (hpr : ParamsOk pr) (gd : Guard F K)
    (hu : gd.u.length = pr.k) {v : A} (hv : Holds e.toCoords pr gd.msm v) :
    (pr.k = 0 ∧ gd.useChallenges pr = none) ∨
      ∃ m, gd.useChallenges pr = some m ∧
        Holds e.toCoords pr m (v + gd.negC • dot (sOf gd.u) pr.g) := by
  unfold Guard.useChallenges
  rw [computeS_eq]
  by_cases h : gd.u = []
  · left
    rw [if_pos h]
    exact ⟨by rw [← hu, h]; rfl, rfl⟩
  · right
    rw [if_neg h, Option.bind_some]
    have hmul : (sOf gd.u).map (gd.negC * ·) = (sOf gd.u).map (· * gd.negC) := by
      simp only [mul_comm]
    obtain ⟨m, h1, h2⟩ := holds_gScalars hv ((sOf gd.u).map (gd.negC * ·))
      (by simp [sOf_length, hu, hpr.n_eq])
    exact ⟨m, h1, by rw [hmul, dot_map_mul] at h2; exact h2⟩

/-- **C24**: `use_challenges` and `use_g` on `compute_g` lead to the same verdict, for every guard
(honest or not) and `k ≥ 1`. -/
theorem useG_eq_useChallenges [DecidableEq A] {e : Enc F K A} (he : e.Valid) {pr : Params A}
    (hpr : ParamsOk pr) (hk : pr.k ≠ 0) (gd : Guard F K) (hu : gd.u.length = pr.k) {v : A}
    (hv : Holds e.toCoords pr gd.msm v) :
    (((gd.computeG pr).bind (gd.useG e.toCoords)).bind fun m => m.eval e.toCoords pr)
      = (gd.useChallenges pr).bind fun m => m.eval e.toCoords pr := by
  rcases useChallenges_spec hpr gd hu hv with ⟨h, -⟩ | ⟨m, h1, h2⟩
  · exact absurd h hk
  · have hne : gd.u ≠ [] := by intro h; rw [h] at hu; exact hk hu.symm
    have hg : gd.computeG pr = some (dot (sOf gd.u) pr.g) := by
      unfold Guard.computeG
      rw [computeS_eq, if_neg hne, Option.bind_some]
      simp only [one_mul, List.map_id']
      exact multiexp_eq _ _ (by rw [sOf_length, hu, hpr.g_len, hpr.n_eq])
    obtain ⟨m', h3, h4⟩ := holds_append he.coords_valid hv gd.negC (dot (sOf gd.u) pr.g)
    rw [hg, Option.bind_some, Guard.useG, h3, h1, Option.bind_some, Option.bind_some,
      eval_spec he.coords_valid hpr.ok h2, eval_spec he.coords_valid hpr.ok h4]

/-- **C24**: `⟨s(u), (1, x, x², …)⟩` is `compute_b(x, u)`. -/
theorem computeS_dot_powers (u : List F) (hu : u ≠ []) (x init : F) :
    ∃ s, computeS u init = some s ∧
      (toPoly s).eval x = init * computeB x u ∧
      ∀ i < 2 ^ u.length, s.getD i 0 = init * ∏ b ∈ Finset.range u.length,
        if i.testBit b then u.reverse.getD b 1 else 1 := by
  refine ⟨_, by rw [computeS_eq, if_neg hu], ?_, ?_⟩
  · rw [computeB_eq, evalPolynomial_eq]
    have : (sOf u).map (init * ·) = (sOf u).map (· * init) := by simp only [mul_comm]
    rw [this, toPoly_map_mul]; simp
  · intro i hi
    rw [← sOf_getD u i hi]
    have : i < (sOf u).length := by rw [sOf_length]; exact hi
    simp [List.getD_eq_getElem?_getD, List.getElem?_eq_getElem this]

/-! ## Honest openings -/

/-- **C24**: whatever the randomness, if `create_proof` succeeds the verifier, run on the bytes
written (followed by anything) from the same transcript state with an accumulator denoting the
commitment and the value of the polynomial, accepts. -/
theorem opening_verifies [DecidableEq A] (threads : ℕ) (ht : threads ≠ 0) {e : Enc F K A}
    (he : e.Valid) (pr : Params A) (hpr : ParamsOk pr) (hk : pr.k ≠ 0) (rand : Random F)
    (p : List F) (r x : F) (P : A) (hP : pr.commit p r = some P) (msm : MSM F K)
    (hm : Holds e.toCoords pr msm P) (st st' : WState F)
    (h : createProof threads e pr rand p r x st = .ok ((), st')) :
    ∃ proof, st'.out = st.out ++ proof ∧ ∀ rest, ∃ gd,
      verifyProof e pr msm x ((toPoly p).eval x) ⟨st.absorbed, proof ++ rest, st.trace⟩
        = .ok (gd, ⟨st'.absorbed, rest, st'.trace⟩) ∧
      (∃ m, gd.useChallenges pr = some m ∧ m.eval e.toCoords pr = some true) ∧
      ∃ g m, gd.computeG pr = some g ∧ gd.useG e.toCoords g = some m ∧
        m.eval e.toCoords pr = some true := by
  unfold Params.commit at hP
  rw [Commitment.multiexp_append] at hP
  split_ifs at hP
  cases hP
  have hs := createProof_sim (tr := st.trace) closed_true threads ht he pr hpr rand p r x
    ((toPoly p).eval x) msm hm (evalPolynomial_eq p x).symm
  obtain ⟨proof, gd, h1, h2, h3, v, h4, h5⟩ := hs.run _ _ _ _ h trivial
  refine ⟨proof, h1, fun rest => ⟨gd, h2 rest, ?_⟩⟩
  have hc := useG_eq_useChallenges he hpr hk gd h3 h4
  rcases useChallenges_spec hpr gd h3 h4 with ⟨h, -⟩ | ⟨m, h6, h7⟩
  · exact absurd h hk
  · have h8 : m.eval e.toCoords pr = some true := by
      rw [h5] at h7
      rw [eval_spec he.coords_valid hpr.ok h7]; simp
    refine ⟨⟨m, h6, h8⟩, ?_⟩
    rw [h6, Option.bind_some, h8] at hc
    obtain ⟨m', h9, h10⟩ := Option.bind_eq_some_iff.1 hc
    obtain ⟨g, h11, h12⟩ := Option.bind_eq_some_iff.1 h9
    exact ⟨g, m', h11, h12, h10⟩

/-! ## When the prover fails -/

/-- `w` only fails with an io error, and its results satisfy `Q`. -/
def Io {α : Type} (w : W F α) (Q : α → Prop) : Prop :=
  ∀ s, match w s with
    | .error err => err = .io
    | .ok (a, _) => Q a

theorem Io.pure {α : Type} (a : α) (Q : α → Prop) (h : Q a) : Io (Pure.pure a : W F α) Q :=
  fun _ => h

theorem Io.bind {α β : Type} {w : W F α} {f : α → W F β} {Q : α → Prop} {Q' : β → Prop}
    (h : Io w Q) (hf : ∀ a, Q a → Io (f a) Q') : Io (w >>= f) Q' := by
  intro s
  change match (w s >>= fun p => f p.1 p.2) with | .error err => err = .io | .ok (a, _) => Q' a
  have hs := h s
  rcases hw : w s with err | ⟨a, s'⟩
  · rw [hw] at hs; exact hs
  · rw [hw] at hs; exact hf a hs s'

theorem Io.panics {α : Type} {x : Option α} {a : α} (h : x = some a) :
    Io (panics x : W F α) (· = a) := by
  subst h; exact Io.pure _ _ rfl

theorem Io.writePoint (e : Enc F K A) (p : A) : Io (W.writePoint e p) fun _ => True := by
  refine Io.bind (Q := fun _ => True) ?_ fun _ _ s => trivial
  intro s
  unfold W.commonPoint
  rcases e.coords p with _ | ⟨x, y⟩ <;> simp

theorem Io.writeScalar (e : Enc F K A) (x : F) : Io (W.writeScalar e x) fun _ => True :=
  fun _ => trivial

theorem Io.squeeze {e : Enc F K A} (he : e.Valid) :
    Io (W.squeeze e) fun c => ∃ bs, c = e.fromUniform bs := by
  intro s
  rw [squeeze_ok he]
  exact ⟨_, rfl⟩

theorem rounds_io (threads : ℕ) (ht : threads ≠ 0) {e : Enc F K A}
    (he : e.Valid) (h0 : ∀ bs, e.fromUniform bs ≠ 0) (pr : Params A) (z : F) (rand : ℕ → F × F)
    (m j : ℕ) (p b : List F)
    (g : List A) (f : F) (hp : p.length = 2 ^ m) (hb : b.length = 2 ^ m) (hg : g.length = 2 ^ m) :
    Io (rounds threads e pr z rand m j p b g f) fun r => ∃ c f, r = ([c], f) := by
  induction m generalizing j p b g f with
  | zero =>
    obtain ⟨c, rfl⟩ := List.length_eq_one_iff.1 hp
    exact Io.pure _ _ ⟨c, f, rfl⟩
  | succ m ih =>
    have hle : 2 ^ (m + 1) = 2 ^ m + 2 ^ m := by rw [pow_succ]; omega
    unfold rounds
    refine (Io.panics (multiexp_eq _ _ (by simp [hp, hg]; omega))).bind fun _ _ =>
      (Io.panics (multiexp_eq _ _ (by simp [hp, hg]; omega))).bind fun _ _ =>
      (Io.panics (computeInnerProduct_dot _ _ (by simp [hp, hb]; omega))).bind fun _ _ =>
      (Io.panics (computeInnerProduct_dot _ _ (by simp [hp, hb]; omega))).bind fun _ _ =>
      (Io.panics (multiexp_eq _ _ (by rfl))).bind fun _ _ =>
      (Io.panics (multiexp_eq _ _ (by rfl))).bind fun _ _ =>
      (Io.writePoint _ _).bind fun _ _ => (Io.writePoint _ _).bind fun _ _ =>
      (Io.squeeze he).bind ?_
    rintro u ⟨bs, rfl⟩
    rw [if_neg (h0 bs)]
    obtain ⟨g', hg1, hg2⟩ := generatorCollapse_eq threads ht g (e.fromUniform bs) m hg
    refine (Io.panics rfl).bind fun _ _ => (Io.panics hg1).bind ?_
    rintro _ rfl
    rw [hg2]
    exact ih _ _ _ _ _ (by simp [hp]; omega) (by simp [hb]; omega) (by simp [hg]; omega)

theorem createProof_io (threads : ℕ) (ht : threads ≠ 0) {e : Enc F K A}
    (he : e.Valid) (h0 : ∀ bs, e.fromUniform bs ≠ 0) (pr : Params A) (hpr : ParamsOk pr)
    (rand : Random F) (p : List F) (hp : p.length = pr.n) (r x : F) :
    Io (createProof threads e pr rand p r x) fun _ => True := by
  have hn : 0 < pr.n := hpr.ok.pos
  unfold createProof
  have hsub : ∀ (l : List F) (y : F), l.length = pr.n → ∃ l', subHead l y = some l' ∧
      l'.length = pr.n ∧ l' ≠ [] := by
    intro l y hl
    cases l with
    | nil => simp at hl; omega
    | cons a t => exact ⟨_, rfl, hl, by simp⟩
  rw [if_pos hp]
  refine (Io.panics rfl).bind fun _ _ => ?_
  obtain ⟨s, hs1, hs2, hs3⟩ := hsub ((List.range p.length).map rand.s)
    (evalPolynomial ((List.range p.length).map rand.s) x) (by simp [hp])
  refine (Io.panics hs1).bind ?_
  rintro s rfl
  have hcom : ∃ c, pr.commit s rand.sBlind = some c := by
    unfold Params.commit
    rw [Commitment.multiexp_append, if_pos (by rw [hs2, hpr.g_len])]
    exact ⟨_, rfl⟩
  obtain ⟨c, hc⟩ := hcom
  refine (Io.panics hc).bind fun _ _ => (Io.writePoint _ _).bind fun _ _ =>
    (Io.squeeze he).bind fun xi _ => (Io.squeeze he).bind fun z _ => ?_
  have hmul : polyMul threads s xi = some (s.map (· * xi)) := by
    unfold polyMul; exact Domain.parallelize_map threads ht _ hs3 _
  refine (Io.panics hmul).bind ?_
  rintro _ rfl
  refine (Io.panics (polyAdd_eq threads ht _ _ (by simpa using hs3) (by simp [hs2, hp]))).bind ?_
  rintro _ rfl
  obtain ⟨q, hq1, hq2, hq3⟩ := hsub (List.zipWith (· + ·) (s.map (· * xi)) p)
    (evalPolynomial (List.zipWith (· + ·) (s.map (· * xi)) p) x) (by simp [hs2, hp])
  refine (Io.panics hq1).bind ?_
  rintro q rfl
  rw [if_pos hq2]
  refine (Io.panics rfl).bind fun _ _ => (rounds_io threads ht he h0 pr z _ _ _ _ _ _ _
    (by rw [hq2, hpr.n_eq]) (powersFrom_length _ _ _) (by rw [hpr.g_len, hpr.n_eq])).bind ?_
  rintro _ ⟨c, f, rfl⟩
  exact (Io.panics rfl).bind fun _ _ => (Io.panics rfl).bind fun _ _ =>
    (Io.writeScalar _ _).bind fun _ _ => Io.writeScalar _ _

/-- **C24**: for a polynomial of `n` coefficients the prover can only fail because a point to be
written is the identity, or because a round challenge is zero. -/
theorem createProof_fails (threads : ℕ) (ht : threads ≠ 0) {e : Enc F K A}
    (he : e.Valid) (h0 : ∀ bs, e.fromUniform bs ≠ 0) (pr : Params A) (hpr : ParamsOk pr)
    (rand : Random F) (p : List F) (hp : p.length = pr.n) (r x : F) (st : WState F) (err : Err)
    (h : createProof threads e pr rand p r x st = .error err) : err = .io := by
  have := createProof_io threads ht he h0 pr hpr rand p hp r x st
  rw [h] at this
  exact this

/-! ## A concrete case: `k = 1` on the curve of order 7 -/

section Example

/-- `w` succeeds with a result satisfying `Q`. -/
def Runs {α : Type} (w : W F α) (Q : α → Prop) : Prop := ∀ s, ∃ a s', w s = .ok (a, s') ∧ Q a

theorem Runs.bind {α β : Type} {w : W F α} {f : α → W F β} {Q : α → Prop} {Q' : β → Prop}
    (h : Runs w Q) (hf : ∀ a, Q a → Runs (f a) Q') : Runs (w >>= f) Q' := by
  intro s
  obtain ⟨a, s', h1, h2⟩ := h s
  obtain ⟨b, s'', h3, h4⟩ := hf a h2 s'
  exact ⟨b, s'', by rw [bind_run h1]; exact h3, h4⟩

theorem Runs.panics {α : Type} {x : Option α} {a : α} (h : x = some a) :
    Runs (panics x : W F α) (· = a) := by
  subst h; exact fun s => ⟨a, s, rfl, rfl⟩

theorem Runs.writePoint {e : Enc F K A} (he : e.Valid) (p : A) (hp : p ≠ 0) :
    Runs (W.writePoint e p) fun _ => True := by
  refine Runs.bind (Q := fun _ => True) ?_ fun _ _ s => ⟨_, _, rfl, trivial⟩
  intro s
  unfold W.commonPoint
  rcases hc : e.coords p with _ | ⟨x, y⟩
  · exact absurd ((he.coords_valid.none_iff p).1 hc) hp
  · exact ⟨_, _, rfl, trivial⟩

theorem Runs.squeeze {e : Enc F K A} (he : e.Valid) :
    Runs (W.squeeze e) fun c => ∃ bs, c = e.fromUniform bs := by
  intro s
  rw [squeeze_ok he]
  exact ⟨_, _, rfl, _, rfl⟩

/-- Parameters with all generators equal to the point (3, 2). -/
def params7 : Params curve7.Point := ⟨1, 2, [pt7, pt7], [pt7, pt7], pt7, pt7⟩

theorem pt7_smul (a : ZMod 7) (h : a ≠ 0) : a • pt7 ≠ 0 := by
  intro h0
  have h1 : a⁻¹ • a • pt7 = 0 := by rw [h0, smul_zero]
  rw [smul_smul, inv_mul_cancel₀ h, one_smul] at h1
  cases h1

/-- With `BLAKE2b` replaced by anything and all challenges 1, the prover opens `3 + 2X` at 0 (the
points it writes are not the identity), and so the hypotheses of `opening_verifies` hold. -/
example (hash : Bytes → Bytes) : ∃ P st',
    params7.commit [3, 2] (1 : ZMod 7) = some P ∧
    createProof 2 (enc7 hash fun _ => 1) params7
      ⟨fun i => i, 1, fun _ => (0, 1)⟩ [3, 2] 1 0 W.init = .ok ((), st') := by
  have he := enc7_valid hash fun _ => 1
  suffices h : Runs (createProof 2 (enc7 hash fun _ => 1) params7
      ⟨fun i => i, 1, fun _ => (0, 1)⟩ [3, 2] 1 0) fun _ => True by
    obtain ⟨a, st', h1, -⟩ := h W.init
    exact ⟨_, st', rfl, h1⟩
  unfold createProof
  refine (Runs.panics rfl).bind fun _ _ => (Runs.panics rfl).bind ?_
  rintro _ rfl
  have hS : params7.commit [(0 : ZMod 7), 1] 1 = some ((2 : ZMod 7) • pt7) := by
    unfold Params.commit
    rw [multiexp_eq _ _ (by rfl)]
    simp only [params7, List.cons_append, List.nil_append, dot_cons, dot_nil, add_zero]
    congr 1
  refine (Runs.panics (a := (2 : ZMod 7) • pt7) (by rw [← hS]; rfl)).bind ?_
  rintro _ rfl
  refine (Runs.writePoint he _ (pt7_smul _ (by decide))).bind fun _ _ =>
    (Runs.squeeze he).bind ?_
  rintro _ ⟨_, rfl⟩
  refine (Runs.squeeze he).bind ?_
  rintro _ ⟨_, rfl⟩
  have hmul : polyMul 2 [(0 : ZMod 7), 1] 1 = some [0, 1] := by
    unfold polyMul; rw [Domain.parallelize_map 2 (by decide) _ (by simp)]; decide
  have hadd : polyAdd 2 [(0 : ZMod 7), 1] [3, 2] = some [3, 3] := by
    rw [polyAdd_eq 2 (by decide) _ _ (by simp) (by rfl)]; decide
  refine (Runs.panics (a := [0, 1]) hmul).bind ?_
  rintro _ rfl
  refine (Runs.panics hadd).bind ?_
  rintro _ rfl
  refine (Runs.panics (a := [0, 3]) (by decide)).bind ?_
  rintro _ rfl
  refine (Runs.panics rfl).bind fun _ _ => ?_
  refine Runs.bind (Q := fun r : List (ZMod 7) × ZMod 7 => r.1.length = 1) ?_ ?_
  · have hL : multiexp [(3 : ZMod 7)] [pt7] = some ((3 : ZMod 7) • pt7) := by
      rw [multiexp_eq _ _ (by rfl)]; simp [dot]
    have hR : multiexp [(0 : ZMod 7)] [pt7] = some ((0 : ZMod 7) • pt7) := by
      rw [multiexp_eq _ _ (by rfl)]; simp [dot]
    have hL' : multiexp [(3 : ZMod 7) * 1, 0] [pt7, pt7] = some ((3 : ZMod 7) • pt7) := by
      rw [multiexp_eq _ _ (by rfl)]; simp [dot]
    have hR' : multiexp [(0 : ZMod 7) * 1, 1] [pt7, pt7] = some ((1 : ZMod 7) • pt7) := by
      rw [multiexp_eq _ _ (by rfl)]; simp [dot]
    change Runs (rounds 2 (enc7 hash fun _ => 1) params7 1 (fun _ => (0, 1)) 1 0 [0, 3]
      (powersFrom 0 2 1) [pt7, pt7] (1 * 1 + 1)) _
    unfold rounds
    refine (Runs.panics hL).bind ?_
    rintro _ rfl
    refine (Runs.panics hR).bind ?_
    rintro _ rfl
    refine (Runs.panics (a := 3) (by decide)).bind ?_
    rintro _ rfl
    refine (Runs.panics (a := 0) (by decide)).bind ?_
    rintro _ rfl
    refine (Runs.panics hL').bind ?_
    rintro _ rfl
    refine (Runs.panics hR').bind ?_
    rintro _ rfl
    rw [← add_smul, ← add_smul]
    refine (Runs.writePoint he _ (pt7_smul _ (by decide))).bind fun _ _ =>
      (Runs.writePoint he _ (pt7_smul _ (by decide))).bind fun _ _ =>
      (Runs.squeeze he).bind ?_
    rintro _ ⟨_, rfl⟩
    refine (Runs.panics rfl).bind ?_
    rintro _ rfl
    obtain ⟨g', hg, -⟩ := generatorCollapse_eq 2 (by decide) [pt7, pt7] (1 : ZMod 7) 0 rfl
    refine (Runs.panics hg).bind fun _ _ => ?_
    exact fun s => ⟨_, _, rfl, rfl⟩
  · rintro ⟨p, f⟩ hp
    obtain ⟨c, rfl⟩ := List.length_eq_one_iff.1 hp
    exact (Runs.panics rfl).bind fun _ _ => (Runs.panics rfl).bind fun _ _ =>
      Runs.bind (Q := fun _ => True) (fun s => ⟨_, _, rfl, trivial⟩) fun _ _ s =>
        ⟨_, _, rfl, trivial⟩

end Example

end Verif.Ipa
