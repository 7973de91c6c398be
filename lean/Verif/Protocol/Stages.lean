import Verif.Protocol.Sim
import Verif.Plonk.Props

/-!
# The stages of prover and verifier before the challenge `x`
-/

namespace Verif.Protocol

open Verif.Cs (Cs Column Lookup)
open Verif.Domain (Domain)
open Verif.PolyArith (evalPolynomial)
open Verif.Plonk (Pk Circuit Leaves Permuted Product Challenges CircuitProof CircuitEvals mapS
  register)
open Verif.Msm Verif.Transcript
open Verif.Multiopen (Query Commitment commitOf)
open Verif.Ipa (ParamsOk)

variable {F K A : Type} [Field F] [AddCommGroup A] [Module F A] [Field K]
variable {Good : List F → Prop} {tr : List F}

/-- The coefficients of a column. -/
def coeffs (threads : ℕ) (d : Domain F) (v : List F) : List F :=
  (d.lagrangeToCoeff threads v).getD []

/-- Parameters that belong to a domain: what `Params::new` guarantees. -/
structure Setup (threads : ℕ) (pr : Params A) (d : Domain F) : Prop where
  params : ParamsOk pr
  domain : d.Valid
  n_eq : pr.n = d.n
  commit : ∀ (p : List F) (b : F), p.length = d.n → pr.commit p b = some (commitOf pr (p, b))
  lagrange : ∀ (v : List F) (b : F), v.length = d.n →
    pr.commitLagrange v b = some (commitOf pr (coeffs threads d v, b))

variable {threads : ℕ} {pr : Params A} {d : Domain F}

theorem coeffs_spec (hs : Setup threads pr d) (ht : threads ≠ 0) (v : List F)
    (hv : v.length = d.n) :
    d.lagrangeToCoeff threads v = some (coeffs threads d v) ∧ (coeffs threads d v).length = d.n := by
  obtain ⟨p, h1, h2, -⟩ := Verif.Plonk.toCoeffs_spec hs.domain threads ht v hv
  unfold coeffs
  rw [h1]; exact ⟨rfl, h2⟩

theorem mapM_some {α β : Type*} {f : α → Option β} (l : List α) (g : α → β)
    (h : ∀ a ∈ l, f a = some (g a)) : l.mapM f = some (l.map g) := by
  induction l with
  | nil => rfl
  | cons a l ih =>
    rw [List.mapM_cons, h a (by simp), ih fun b hb => h b (by simp [hb])]; rfl

/-! ### Columns -/

/-- The instance values fit. -/
def Fits (cs : Cs F) (n : ℕ) (instances : List (List (List F))) : Prop :=
  (∀ i ∈ instances, i.length = cs.numInstance) ∧
    ((∃ i ∈ instances, i ≠ []) → cs.blindingFactors + 1 ≤ n) ∧
    ∀ i ∈ instances, ∀ v ∈ i, v.length ≤ n - (cs.blindingFactors + 1)

/-- Padding a column of instance values with zeros. -/
def pad (n : ℕ) (v : List F) : List F := v ++ List.replicate (n - v.length) 0

theorem padInstance_eq {σ : Type} (n bf : ℕ) (v : List F) (hn : bf + 1 ≤ n)
    (hv : v.length ≤ n - (bf + 1)) :
    (padInstance n bf v : StateT σ (Except Err) (List F)) = pure (pad n v) := by
  unfold padInstance
  rw [check_true _ hn, check_true _ hv]; rfl

theorem padInstance_ok {σ : Type} {n bf : ℕ} {v r : List F} {s s' : σ}
    (h : (padInstance n bf v : StateT σ (Except Err) (List F)) s = .ok (r, s')) :
    bf + 1 ≤ n ∧ v.length ≤ n - (bf + 1) := by
  unfold padInstance at h
  obtain ⟨_, _, h1, h⟩ := bind_ok h
  obtain ⟨_, _, h2, h⟩ := bind_ok h
  exact ⟨(check_ok h1).1, (check_ok h2).1⟩

theorem pad_length {n : ℕ} {v : List F} (h : v.length ≤ n) : (pad n v).length = n := by
  simp only [pad, List.length_append, List.length_replicate]; omega

/-- The columns the prover works with. -/
def witness (n bf : ℕ) (rng : Rng F) (circuits instances : List (List (List F))) :
    List (Circuit F) :=
  (((circuits.zipIdx).map fun q => blindCircuit n bf rng.adviceRows q.2 q.1).zip
    (instances.map fun i => i.map (pad n))).map fun q => ⟨q.1, q.2⟩

theorem proverInstance_ok {e : Enc F K A} {cs : Cs F} {inst r : List (List F)} {s s' : WState F}
    (h : proverInstance e pr d cs inst s = .ok (r, s')) :
    ∀ v ∈ inst, cs.blindingFactors + 1 ≤ d.n ∧ v.length ≤ d.n - (cs.blindingFactors + 1) := by
  unfold proverInstance at h
  obtain ⟨vs, s₁, h1, -⟩ := bind_ok h
  intro v hv
  obtain ⟨s₂, a, s₃, h2⟩ := mapM_ok h1 v hv
  obtain ⟨_, _, -, h2⟩ := bind_ok h2
  exact padInstance_ok h2

theorem proverInstance_eq (hs : Setup threads pr d) (e : Enc F K A) (cs : Cs F)
    (inst : List (List F))
    (h : ∀ v ∈ inst, cs.blindingFactors + 1 ≤ d.n ∧ v.length ≤ d.n - (cs.blindingFactors + 1)) :
    proverInstance e pr d cs inst = (do
      let _ ← (inst.map fun v => commitOf pr (coeffs threads d (pad d.n v), 1)).mapM
        fun c => W.commonPoint e c
      pure (inst.map (pad d.n))) := by
  unfold proverInstance
  rw [mapM_eq_pure inst (pad d.n) fun v hv => by
    rw [check_true _ hs.n_eq.symm, pure_bind]
    exact padInstance_eq _ _ _ (h v hv).1 (h v hv).2]
  rw [pure_bind, mapM_some (inst.map (pad d.n))
    (fun v => commitOf pr (coeffs threads d v, 1)) fun v hv => by
      obtain ⟨w, hw, rfl⟩ := List.mem_map.1 hv
      exact hs.lagrange _ _ (pad_length (by have := h w hw; omega))]
  rw [List.map_map]
  rfl

theorem proverAdvice_eq (hs : Setup threads pr d) (e : Enc F K A) (cs : Cs F) (rng : Rng F)
    (hbf : cs.blindingFactors + 1 ≤ d.n) (i : ℕ) (advice : List (List F))
    (h : ∀ v ∈ blindCircuit d.n cs.blindingFactors rng.adviceRows i advice, v.length = d.n) :
    proverAdvice e pr cs rng i advice = (do
      let _ ← (((blindCircuit d.n cs.blindingFactors rng.adviceRows i advice).mapIdx fun j v =>
        (v, rng.adviceBlind i j)).map fun q => commitOf pr (coeffs threads d q.1, q.2)).mapM
          fun c => W.writePoint e c
      pure (blindCircuit d.n cs.blindingFactors rng.adviceRows i advice)) := by
  unfold proverAdvice
  rw [hs.n_eq, check_true _ hbf, pure_bind]
  dsimp only
  rw [mapM_some _ (fun q : List F × F => commitOf pr (coeffs threads d q.1, q.2)) fun q hq => by
      obtain ⟨j, hj, rfl⟩ := List.mem_mapIdx.1 hq
      exact hs.lagrange _ _ (h _ (List.getElem_mem _))]
  rfl

theorem readNPoints_sim (hG : Closed Good) {e : Enc F K A} (he : e.Valid) (l : List A) (n : ℕ)
    (hn : l.length = n) :
    Sim Good tr (l.mapM fun c => W.writePoint e c) (R.readNPoints e n) fun _ cs t =>
      t = tr ∧ cs = l := by
  refine (Sim.loop hG l (List.range n) (by simp [hn]) _ _ (fun _ => ()) (fun c => c)
    (fun _ => Grows.writePoint _ _) fun p _ => ?_).mono fun _ _ _ _ _ h => ⟨h.1, by simpa using h.2.2⟩
  exact (Sim.writePoint he _).mono fun _ _ _ _ _ h => ⟨h.2.2, rfl, h.1⟩

theorem readNScalars_sim (hG : Closed Good) {e : Enc F K A} (he : e.Valid) (l : List F) (n : ℕ)
    (hn : l.length = n) :
    Sim Good tr (l.mapM fun c => W.writeScalar e c) (R.readNScalars e n) fun _ cs t =>
      t = tr ∧ cs = l := by
  refine (Sim.loop hG l (List.range n) (by simp [hn]) _ _ (fun _ => ()) (fun c => c)
    (fun _ => Grows.writeScalar _ _) fun p _ => ?_).mono fun _ _ _ _ _ h => ⟨h.1, by simpa using h.2.2⟩
  exact (Sim.writeScalar he _).mono fun _ _ _ _ _ h => ⟨h.2, rfl, h.1⟩

theorem commonPoints_sim (hG : Closed Good) (e : Enc F K A) (l : List A) :
    Sim Good tr (l.mapM fun c => W.commonPoint e c) (l.mapM fun c => R.commonPoint e c) fun _ _ t =>
      t = tr := by
  refine (Sim.loop hG l l rfl _ _ (fun _ => ()) (fun _ => ())
    (fun _ => Grows.commonPoint _ _) fun p hp => ?_).mono fun _ _ _ _ _ h => h.1
  have : p.1 = p.2 := by
    obtain ⟨i, hi, rfl⟩ := List.mem_iff_getElem.1 hp
    simp
  rw [this]
  exact (Sim.commonPoint _).mono fun _ _ _ _ _ h => ⟨h, rfl, rfl⟩

theorem proverColumns_grows (e : Enc F K A) (cs : Cs F) (repr : F) (rng : Rng F)
    (circuits instances : List (List (List F))) :
    Grows (proverColumns e pr d cs repr rng circuits instances) := by
  unfold proverColumns proverInstance proverAdvice padInstance
  grows

theorem proverColumns_fits {e : Enc F K A} {cs : Cs F} {repr : F} {rng : Rng F}
    {circuits instances : List (List (List F))} {s s' : WState F} {r : List (Circuit F)}
    (h : proverColumns e pr d cs repr rng circuits instances s = .ok (r, s')) :
    circuits.length = instances.length ∧ Fits cs d.n instances := by
  unfold proverColumns at h
  obtain ⟨_, _, h1, h⟩ := bind_ok h
  obtain ⟨_, _, h2, h⟩ := bind_ok h
  obtain ⟨_, _, -, h⟩ := bind_ok h
  obtain ⟨_, _, h3, -⟩ := bind_ok h
  have h4 : ∀ i ∈ instances, ∀ v ∈ i, cs.blindingFactors + 1 ≤ d.n ∧
      v.length ≤ d.n - (cs.blindingFactors + 1) := by
    intro i hi
    obtain ⟨_, _, _, h5⟩ := mapM_ok h3 i hi
    exact proverInstance_ok h5
  refine ⟨(check_ok h1).1, (check_ok h2).1, ?_, fun i hi v hv => (h4 i hi v hv).2⟩
  rintro ⟨i, hi, hne⟩
  obtain ⟨v, hv⟩ := List.exists_mem_of_ne_nil i hne
  exact (h4 i hi v hv).1

/-- The commitments to the advice columns of a circuit. -/
def adviceOpens (threads : ℕ) (d : Domain F) (rng : Rng F) (i : ℕ) (advice : List (List F)) :
    List (List F × F) :=
  advice.mapIdx fun j v => (coeffs threads d v, rng.adviceBlind i j)

set_option maxHeartbeats 400000 in
theorem columns_sim (hG : Closed Good) {e : Enc F K A} (he : e.Valid) (hs : Setup threads pr d)
    (cs : Cs F) (hbf : cs.blindingFactors + 1 ≤ d.n) (repr : F) (rng : Rng F)
    (circuits instances : List (List (List F)))
    (hlen : ∀ q ∈ circuits.zipIdx,
      (blindCircuit d.n cs.blindingFactors rng.adviceRows q.2 q.1).length = cs.numAdvice ∧
      ∀ v ∈ blindCircuit d.n cs.blindingFactors rng.adviceRows q.2 q.1, v.length = d.n) :
    Sim Good tr (proverColumns e pr d cs repr rng circuits instances)
      (verifierColumns e pr cs repr instances) fun ws c t => t = tr ∧
        ws = witness d.n cs.blindingFactors rng circuits instances ∧
        circuits.length = instances.length ∧ Fits cs d.n instances ∧
        c.1 = instances.map (fun i => i.map fun v =>
          commitOf pr (coeffs threads d (pad d.n v), 1)) ∧
        c.2 = circuits.zipIdx.map fun q => (adviceOpens threads d rng q.2
          (blindCircuit d.n cs.blindingFactors rng.adviceRows q.2 q.1)).map (commitOf pr) := by
  refine Sim.of_ok (proverColumns_grows _ _ _ _ _ _) (fun _ _ _ => proverColumns_fits) ?_
  rintro ⟨hl, hf⟩
  have hfit : ∀ i ∈ instances, ∀ v ∈ i, cs.blindingFactors + 1 ≤ d.n ∧
        v.length ≤ d.n - (cs.blindingFactors + 1) := fun i hi v hv => ⟨hbf, hf.2.2 i hi v hv⟩
  unfold proverColumns verifierColumns
  rw [check_true _ hl, check_true _ hf.1, check_true _ hf.1]
  simp only [pure_bind]
  rw [mapM_congr instances fun i hi => proverInstance_eq hs e cs i (hfit i hi)]
  rw [mapM_eq_pure (f := fun i : List (List F) => i.mapM fun v => do
      let v ← padInstance pr.n cs.blindingFactors v
      panics (pr.commitLagrange v 1)) instances
    (fun i => i.map fun v => commitOf pr (coeffs threads d (pad d.n v), 1))
    fun i hi => mapM_eq_pure _ _ fun v hv => by
      rw [hs.n_eq, padInstance_eq _ _ _ hbf (hf.2.2 i hi v hv), pure_bind, hs.lagrange _ _
        (pad_length (by have := hf.2.2 i hi v hv; omega))]
      rfl]
  rw [pure_bind]
  refine Sim.bind' hG (Sim.commonScalar repr) (fun _ => by
    refine Grows.bind ?_ fun _ => ?_
    · grows
    · unfold proverAdvice; grows) ?_
  rintro _ _ t - rfl
  rw [mapM_map]
  refine Sim.bind' hG (Sim.loopW hG instances instances rfl _ _
    (fun i => i.map (pad d.n)) (fun _ => by grows) ?_) (fun _ => by
      unfold proverAdvice; grows) ?_
  · intro p hp
    rw [← mem_zip_self hp]
    exact (Sim.thenW (commonPoints_sim hG e _) _).mono
      (by rintro _ _ _ _ _ ⟨rfl, _, rfl⟩; exact ⟨rfl, rfl⟩)
  rintro _ _ t - ⟨rfl, rfl⟩
  rw [mapM_congr circuits.zipIdx fun q hq => proverAdvice_eq hs e cs rng hbf q.2 q.1 (hlen q hq).2]
  refine Sim.bind' hG (Sim.loop hG circuits.zipIdx _ (by simp [hl]) _ _
    (fun q => blindCircuit d.n cs.blindingFactors rng.adviceRows q.2 q.1)
    (fun q => (adviceOpens threads d rng q.2
          (blindCircuit d.n cs.blindingFactors rng.adviceRows q.2 q.1)).map (commitOf pr))
    (fun _ => by grows) ?_) (fun _ => by grows) ?_
  · intro p hp
    have hp1 : p.1 ∈ circuits.zipIdx := (List.of_mem_zip hp).1
    refine (Sim.thenW (readNPoints_sim hG he _ _ ?_) _).mono ?_
    · simp [(hlen p.1 hp1).1]
    · rintro _ _ _ _ _ ⟨rfl, _, rfl, rfl⟩
      refine ⟨rfl, rfl, ?_⟩
      apply List.ext_getElem <;> simp [adviceOpens]
  rintro _ _ t - ⟨rfl, rfl, rfl⟩
  exact Sim.pure _ _ fun _ => ⟨rfl, rfl, hl, hf, rfl, rfl⟩

end Verif.Protocol
