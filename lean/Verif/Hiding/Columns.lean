import Verif.Hiding.OpenRun

/-!
# Steering the advice columns (C77)
-/

namespace Verif.Hiding

open Verif.Cs (Cs Column Lookup)
open Verif.Domain (Domain)
open Verif.PolyArith (evalPolynomial)
open Verif.Plonk (Pk Circuit rows)
open Verif.Msm Verif.Transcript Verif.Multicore
open Verif.Multiopen (commitOf)
open Verif.Ipa (ParamsOk)
open Verif.Protocol

variable {F K A : Type} [Field F] [LinearOrder F] [AddCommGroup A] [Module F A] [Field K]
  [LinearOrder K] {threads : ℕ} {pr : Params A} {d : Domain F}

theorem mapM_then_pure {α β γ σ : Type} (f : α → StateT σ (Except Err) β) (g : α → γ) (l : List α) :
    (l.mapM fun a => do let _ ← f a; pure (g a)) = (do let _ ← l.mapM f; pure (l.map g)) := by
  induction l with
  | nil => rfl
  | cons a l ih =>
    rw [List.mapM_cons, List.mapM_cons, ih]
    simp [bind_assoc]

omit [LinearOrder F] [LinearOrder K] in
/-- The columns stage, without its internal steps. -/
theorem columns_eq (hs : Setup threads pr d) (e : Enc F K A) {cs : Cs F}
    (hbf : cs.blindingFactors + 1 ≤ d.n) (repr : F) (rng : Rng F)
    {circuits instances : List (List (List F))}
    (hlen : ∀ a ∈ circuits, ∀ v ∈ a, v.length = d.n)
    (hl : circuits.length = instances.length) (hf : Fits cs d.n instances) :
    proverColumns e pr d cs repr rng circuits instances = (do
      W.commonScalar e repr
      let _ ← instances.mapM fun i => (i.map fun v =>
        commitOf pr (coeffs threads d (pad d.n v), 1)).mapM fun c => W.commonPoint e c
      let _ ← circuits.zipIdx.mapM fun q => ((adviceOpens threads d rng q.2
        (blindCircuit d.n cs.blindingFactors rng.adviceRows q.2 q.1)).map (commitOf pr)).mapM
          fun c => W.writePoint e c
      pure (witness d.n cs.blindingFactors rng circuits instances)) := by
  have hfit : ∀ i ∈ instances, ∀ v ∈ i, cs.blindingFactors + 1 ≤ d.n ∧
        v.length ≤ d.n - (cs.blindingFactors + 1) := fun i hi v hv => ⟨hbf, hf.2.2 i hi v hv⟩
  have hlen' : ∀ q ∈ circuits.zipIdx,
      ∀ v ∈ blindCircuit d.n cs.blindingFactors rng.adviceRows q.2 q.1, v.length = d.n := by
    rintro ⟨a, i⟩ hq v hv
    rw [List.mem_zipIdx_iff_getElem?] at hq
    obtain ⟨j, hj, rfl⟩ := List.mem_mapIdx.1 hv
    exact blindColumn_length _ (hlen a (List.mem_of_getElem? hq) _ (List.getElem_mem _))
  unfold proverColumns
  rw [check_true _ hl, check_true _ hf.1]
  simp only [pure_bind]
  rw [mapM_congr instances fun i hi => proverInstance_eq hs e cs i (hfit i hi),
    mapM_congr circuits.zipIdx fun q hq => proverAdvice_eq hs e cs rng hbf q.2 q.1 (hlen' q hq),
    mapM_then_pure, mapM_then_pure]
  simp only [bind_assoc, pure_bind]
  have e1 : ∀ q : List (List F) × ℕ,
      (((blindCircuit d.n cs.blindingFactors rng.adviceRows q.2 q.1).mapIdx fun j v =>
        (v, rng.adviceBlind q.2 j)).map fun q => commitOf pr (coeffs threads d q.1, q.2))
      = (adviceOpens threads d rng q.2
        (blindCircuit d.n cs.blindingFactors rng.adviceRows q.2 q.1)).map (commitOf pr) := by
    intro q
    apply List.ext_getElem <;> simp [adviceOpens]
  simp only [e1]
  rfl

theorem Quiet.writePoint (e : Enc F K A) (c : A) : Quiet (W.writePoint e c) :=
  fun _ _ _ h => writePoint_ok h

omit [LinearOrder F] [LinearOrder K] in
theorem Quiet.commonPoint (e : Enc F K A) (c : A) : Quiet (W.commonPoint e c) := by
  intro s a s' h
  unfold W.commonPoint at h
  split at h <;> cases h
  rfl

omit [LinearOrder F] [LinearOrder K] in
theorem Quiet.commonScalar (e : Enc F K A) (c : F) : Quiet (W.commonScalar e c) := by
  intro s a s' h
  cases h
  rfl

theorem zipIdx_forall₂ {α β : Type*} {R : α × ℕ → β × ℕ → Prop} {l : List α} {m : List β}
    (hl : l.length = m.length)
    (h : ∀ (i : ℕ) (h1 : i < l.length) (h2 : i < m.length), R (l[i], i) (m[i], i)) :
    List.Forall₂ R l.zipIdx m.zipIdx := by
  rw [List.forall₂_iff_get]
  refine ⟨by simp [hl], fun i h1 h2 => ?_⟩
  simp only [List.length_zipIdx] at h1 h2
  simpa using h i h1 h2

set_option maxHeartbeats 400000 in
/-- The blinding rows and blinding factors of other advice columns can be chosen so that they are
committed to alike. -/
theorem columns_steer (hs : Setup threads pr d) (ht : threads ≠ 0)
    (hw : ∀ a : A, ∃ r : F, r • pr.w = a) {e : Enc F K A} {cs : Cs F}
    (hbf : cs.blindingFactors + 1 ≤ d.n) {repr : F} {rng₁ : Rng F}
    {circuits₁ circuits₂ instances : List (List (List F))}
    (hc₁ : ∀ a ∈ circuits₁, a.length = cs.numAdvice ∧ ∀ v ∈ a, v.length = d.n)
    (hc₂ : ∀ a ∈ circuits₂, a.length = cs.numAdvice ∧ ∀ v ∈ a, v.length = d.n)
    (hcl : circuits₂.length = circuits₁.length) {st st' : WState F} {ws₁ : List (Circuit F)}
    (h : proverColumns e pr d cs repr rng₁ circuits₁ instances st = .ok (ws₁, st')) :
    ws₁ = witness d.n cs.blindingFactors rng₁ circuits₁ instances ∧
    circuits₁.length = instances.length ∧ Fits cs d.n instances ∧ st'.trace = st.trace ∧
    ∀ T : ℕ → Finset F, (∀ j, (T j).card ≤ cs.blindingFactors + 1) →
      (∀ j, ∀ s ∈ T j, s ^ d.n ≠ 1) →
      ∃ (AR : ℕ → ℕ → ℕ → F) (AB : ℕ → ℕ → F), ∀ rng₀ : Rng F,
        proverColumns e pr d cs repr { rng₀ with adviceRows := AR, adviceBlind := AB } circuits₂
          instances st = .ok (witness d.n cs.blindingFactors
            { rng₀ with adviceRows := AR, adviceBlind := AB } circuits₂ instances, st') ∧
        ∀ (i : ℕ) (h1 : i < circuits₁.length) (h2 : i < circuits₂.length) (j : ℕ) q₁ q₂,
          (adviceOpens threads d rng₁ i (blindCircuit d.n cs.blindingFactors rng₁.adviceRows i
            circuits₁[i]))[j]? = some q₁ →
          (adviceOpens threads d { rng₀ with adviceRows := AR, adviceBlind := AB } i
            (blindCircuit d.n cs.blindingFactors AR i circuits₂[i]))[j]? = some q₂ →
          Alike pr (T j) q₁ q₂ := by
  obtain ⟨hl, hf⟩ := proverColumns_fits h
  rw [columns_eq hs e hbf repr rng₁ (fun a ha => (hc₁ a ha).2) hl hf] at h
  obtain ⟨_, s1, p1, h⟩ := bind_ok h
  obtain ⟨_, s2, p2, h⟩ := bind_ok h
  obtain ⟨u3, s3, p3, h⟩ := bind_ok h
  obtain ⟨hws, hst⟩ : witness d.n cs.blindingFactors rng₁ circuits₁ instances = ws₁ ∧ s3 = st' := by
    simpa [pure, StateT.pure, Except.pure] using h
  subst hst
  refine ⟨hws.symm, hl, hf, ?_, ?_⟩
  · rw [Quiet.mapM (fun q => Quiet.mapM (fun c => Quiet.writePoint e c) _) _ _ _ _ p3,
      Quiet.mapM (fun q => Quiet.mapM (fun c => Quiet.commonPoint e c) _) _ _ _ _ p2,
      Quiet.commonScalar e _ _ _ _ p1]
  intro T hT hx
  have key : ∀ i j : ℕ, ∃ (r : ℕ → F) (b : F), ∀ v₁ v₂,
      circuits₁[i]?.bind (·[j]?) = some v₁ → circuits₂[i]?.bind (·[j]?) = some v₂ →
      Alike pr (T j) (coeffs threads d (blindColumn d.n cs.blindingFactors (rng₁.adviceRows i j) v₁),
        rng₁.adviceBlind i j) (coeffs threads d (blindColumn d.n cs.blindingFactors r v₂), b) := by
    intro i j
    cases hv1 : circuits₁[i]?.bind (·[j]?) with
    | none => exact ⟨fun _ => 0, 0, nofun⟩
    | some v₁ =>
      cases hv2 : circuits₂[i]?.bind (·[j]?) with
      | none => exact ⟨fun _ => 0, 0, nofun⟩
      | some v₂ =>
        have hl1 : v₁.length = d.n := by
          obtain ⟨a, ha, hv⟩ := Option.bind_eq_some_iff.1 hv1
          exact (hc₁ a (List.mem_of_getElem? ha)).2 v₁ (List.mem_of_getElem? hv)
        have hl2 : v₂.length = d.n := by
          obtain ⟨a, ha, hv⟩ := Option.bind_eq_some_iff.1 hv2
          exact (hc₂ a (List.mem_of_getElem? ha)).2 v₂ (List.mem_of_getElem? hv)
        obtain ⟨r, hr⟩ := blind_free hs.domain (v₂.take (d.n - (cs.blindingFactors + 1)))
          (cs.blindingFactors + 1) (by rw [List.length_take, hl2]; omega) (T j) (hT j) (hx j)
          (evalPolynomial (coeffs threads d
            (blindColumn d.n cs.blindingFactors (rng₁.adviceRows i j) v₁)))
        obtain ⟨b, hb⟩ := blind_exists hw
          (coeffs threads d (blindColumn d.n cs.blindingFactors r v₂))
          (commitOf pr (coeffs threads d
            (blindColumn d.n cs.blindingFactors (rng₁.adviceRows i j) v₁), rng₁.adviceBlind i j))
        refine ⟨r, b, ?_⟩
        rintro _ _ ⟨⟩ ⟨⟩
        have k1 := blindColumn_length (bf := cs.blindingFactors) (rng₁.adviceRows i j) hl1
        have k2 := blindColumn_length (bf := cs.blindingFactors) r hl2
        have k3 := (coeffs_spec hs ht _ k1).2
        have k4 := (coeffs_spec hs ht _ k2).2
        refine ⟨by rw [hs.n_eq]; exact k3, by rw [hs.n_eq]; exact k4, hb, hr _ k4 ?_⟩
        rw [coeffs_rows hs ht _ k2]
        unfold blindColumn
        rw [hl2, show d.n - (d.n - (cs.blindingFactors + 1)) = cs.blindingFactors + 1 by omega]
  choose AR AB hAB using key
  refine ⟨AR, AB, fun rng₀ => ?_⟩
  have hal : ∀ (i : ℕ) (h1 : i < circuits₁.length) (h2 : i < circuits₂.length) (j : ℕ) q₁ q₂,
      (adviceOpens threads d rng₁ i (blindCircuit d.n cs.blindingFactors rng₁.adviceRows i
        circuits₁[i]))[j]? = some q₁ →
      (adviceOpens threads d { rng₀ with adviceRows := AR, adviceBlind := AB } i
        (blindCircuit d.n cs.blindingFactors AR i circuits₂[i]))[j]? = some q₂ →
      Alike pr (T j) q₁ q₂ := by
    intro i h1 h2 j q₁ q₂ e1 e2
    simp only [adviceOpens, blindCircuit, List.getElem?_mapIdx, Option.map_map,
      Option.map_eq_some_iff] at e1 e2
    obtain ⟨v₁, e1, rfl⟩ := e1
    obtain ⟨v₂, e2', rfl⟩ := e2
    refine hAB i j v₁ v₂ ?_ ?_
    · rw [List.getElem?_eq_getElem h1]; exact e1
    · rw [List.getElem?_eq_getElem h2]; exact e2'
  refine ⟨?_, hal⟩
  rw [columns_eq hs e hbf repr _ (fun a ha => (hc₂ a ha).2) (hcl.trans hl) hf]
  refine ok_bind p1 (ok_bind p2 (ok_bind (a := u3) ?_ rfl))
  rw [← p3]
  refine congrFun (mapM_forall₂ (R := fun q₁ q₂ =>
    (adviceOpens threads d { rng₀ with adviceRows := AR, adviceBlind := AB } q₂.2
      (blindCircuit d.n cs.blindingFactors AR q₂.2 q₂.1)).map (commitOf pr)
    = (adviceOpens threads d rng₁ q₁.2
      (blindCircuit d.n cs.blindingFactors rng₁.adviceRows q₁.2 q₁.1)).map (commitOf pr)) ?_
    (zipIdx_forall₂ hcl.symm ?_)) s2
  · intro a b hab
    rw [hab]
  · intro i h1 h2
    have hll : circuits₂[i].length = circuits₁[i].length := by
      rw [(hc₁ _ (List.getElem_mem h1)).1, (hc₂ _ (List.getElem_mem h2)).1]
    refine List.ext_getElem (by simp [adviceOpens, blindCircuit, hll]) fun j k1 k2 => ?_
    rw [List.getElem_map, List.getElem_map]
    exact (hal i h1 h2 j _ _ (List.getElem?_eq_getElem (by simpa using k2))
      (List.getElem?_eq_getElem (by simpa using k1))).comm

end Verif.Hiding
