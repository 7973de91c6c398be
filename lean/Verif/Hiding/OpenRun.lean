import Verif.Hiding.Opening

/-!
# Steering the opening stage (C77)
-/

namespace Verif.Hiding

open Verif.Cs (Cs Column Lookup)
open Verif.Domain (Domain)
open Verif.PolyArith (evalPolynomial)
open Verif.Plonk (Pk Circuit Leaves Permuted Product Challenges CircuitProof CircuitEvals mapS
  register rows Good VGood At ev PermutedOk permsOf colValues Sat Nonzero Ready cols queryEvals
  circuitEvals)
open Verif.Msm Verif.Transcript Verif.Multicore
open Verif.Multiopen (Query Commitment commitOf horner CommitmentData constructIntermediateSets)
open Verif.Ipa (ParamsOk)
open Verif.Protocol

variable {F K A : Type} [Field F] [LinearOrder F] [AddCommGroup A] [Module F A] [Field K]
  [LinearOrder K] {threads : ℕ} {pr : Params A} {d : Domain F}

/-- The step draws no challenge. -/
def Quiet {α : Type} (w : W F α) : Prop := ∀ s a s', w s = .ok (a, s') → s'.trace = s.trace

omit [LinearOrder F] in
theorem Quiet.bind {α β : Type} {w : W F α} {f : α → W F β} (hw : Quiet w) (hf : ∀ a, Quiet (f a)) :
    Quiet (w >>= f) := by
  intro s b s' h
  obtain ⟨a, s1, h1, h2⟩ := bind_ok h
  rw [hf a _ _ _ h2, hw _ _ _ h1]

omit [LinearOrder F] in
theorem Quiet.pure {α : Type} (a : α) : Quiet (pure a : W F α) := by
  intro s b s' h
  cases h
  rfl

omit [LinearOrder F] in
theorem Quiet.mapM {α β : Type} {f : α → W F β} (hf : ∀ a, Quiet (f a)) (l : List α) :
    Quiet (l.mapM f) := by
  induction l with
  | nil => exact Quiet.pure _
  | cons a l ih =>
    rw [List.mapM_cons]
    exact (hf a).bind fun _ => ih.bind fun _ => Quiet.pure _

omit [LinearOrder F] in
theorem Quiet.panics {α : Type} (o : Option α) : Quiet (panics o : W F α) := by
  intro s b s' h
  rw [(panics_ok h).2]

theorem Quiet.writeScalar (e : Enc F K A) (v : F) : Quiet (W.writeScalar e v) :=
  fun _ _ _ h => writeScalar_ok h

theorem Quiet.evalQueries (e : Enc F K A) (x : F) (qs : List (ℕ × ℤ)) (ps : List (List F)) :
    Quiet (evalQueries e d x qs ps) := by
  unfold Verif.Protocol.evalQueries
  exact (Quiet.panics _).bind fun _ => (Quiet.mapM (fun _ => Quiet.writeScalar e _) _).bind
    fun _ => Quiet.pure _

theorem Quiet.evalPermutation (e : Enc F K A) (bf : ℕ) (x : F) (ps : List (List F)) :
    Quiet (evalPermutation e d bf x ps) := by
  induction ps with
  | nil => exact Quiet.pure _
  | cons p ps ih =>
    unfold Verif.Protocol.evalPermutation
    refine (Quiet.writeScalar e _).bind fun _ => (Quiet.writeScalar e _).bind fun _ => ?_
    split_ifs
    · exact (Quiet.writeScalar e _).bind fun _ => ih
    · exact ih

theorem Quiet.evalLookup (e : Enc F K A) (x : F) (q : List F × List F × List F) :
    Quiet (evalLookup e d x q) := by
  unfold Verif.Protocol.evalLookup
  exact (Quiet.writeScalar e _).bind fun _ => (Quiet.writeScalar e _).bind fun _ =>
    (Quiet.writeScalar e _).bind fun _ => (Quiet.writeScalar e _).bind fun _ =>
    Quiet.writeScalar e _

theorem mapM_ok_mem {α β σ : Type} {f : α → StateT σ (Except Err) β} {l : List α} {s s' : σ}
    {r : List β} (h : l.mapM f s = .ok (r, s')) :
    ∀ a ∈ l, ∃ s1 b s2, f a s1 = .ok (b, s2) := by
  induction l generalizing s s' r with
  | nil => intro a ha; cases ha
  | cons c l ih =>
    rw [List.mapM_cons] at h
    obtain ⟨b, s1, h1, h⟩ := bind_ok h
    obtain ⟨bs, s2, h2, h⟩ := bind_ok h
    intro a ha
    rcases List.mem_cons.1 ha with rfl | ha
    · exact ⟨_, _, _, h1⟩
    · exact ih h2 a ha

theorem mapErr_ok {α σ : Type} {er : Err} {w : StateT σ (Except Err) α} {s : σ} {r : α × σ} :
    mapErr er w s = .ok r ↔ w s = .ok r := by
  unfold mapErr
  cases h : w s with
  | ok a => simp
  | error e => cases e <;> simp

omit [LinearOrder K] in
theorem evalQueries_some {e : Enc F K A} {x : F} {qs : List (ℕ × ℤ)} {ps : List (List F)}
    {s s' : WState F} (h : evalQueries e d x qs ps s = .ok ((), s')) :
    ∃ v, queryEvals d x ps qs = some v := by
  unfold evalQueries at h
  obtain ⟨v, hv, -⟩ := panics_bind_ok h
  exact ⟨v, hv⟩

/-- The commitments to the pieces of the quotient determine the commitment to the quotient. -/
theorem recombine_alike (ht : threads ≠ 0) (hn : d.n ≠ 0) (xn : F) {p₁ p₂ : List (List F)}
    {b₁ b₂ : ℕ → F} (h₁ : ∀ p ∈ p₁, p.length = d.n) (h₂ : ∀ p ∈ p₂, p.length = d.n)
    (hc : (p₂.mapIdx fun i p => commitOf pr (p, b₂ i)) = p₁.mapIdx fun i p => commitOf pr (p, b₁ i)) :
    ∃ o₁ o₂, Verif.Vanishing.recombine threads d xn p₁ = some o₁ ∧
      Verif.Vanishing.recombine threads d xn p₂ = some o₂ ∧ o₁.length = d.n ∧ o₂.length = d.n ∧
      commitOf pr (o₂, Verif.Vanishing.recombineBlind xn (p₂.mapIdx fun i _ => b₂ i))
        = commitOf pr (o₁, Verif.Vanishing.recombineBlind xn (p₁.mapIdx fun i _ => b₁ i)) := by
  have key : ∀ {p : List (List F)} {b : ℕ → F}, (∀ q ∈ p, q.length = d.n) →
      ∃ o, Verif.Vanishing.recombine threads d xn p = some o ∧ o.length = d.n ∧
        commitOf pr (o, Verif.Vanishing.recombineBlind xn (p.mapIdx fun i _ => b i))
          = Verif.Vanishing.hCommitment xn (p.mapIdx fun i p => commitOf pr (p, b i)) := by
    intro p b hp
    have hpcs : p = (p.mapIdx fun i p => (p, b i)).map Prod.fst :=
      List.ext_getElem (by simp) fun i h1 h2 => by simp
    have hbls : (p.mapIdx fun i _ => b i) = (p.mapIdx fun i p => (p, b i)).map Prod.snd :=
      List.ext_getElem (by simp) fun i h1 h2 => by simp
    have hcm : (p.mapIdx fun i p => commitOf pr (p, b i))
        = (p.mapIdx fun i p => (p, b i)).map (commitOf pr) :=
      List.ext_getElem (by simp) fun i h1 h2 => by simp
    obtain ⟨o, ho1, ho2, ho3⟩ := recombine_commit (pr := pr) ht hn xn
      (p.mapIdx fun i p => (p, b i)) (by
        intro q hq
        obtain ⟨i, hi, rfl⟩ := List.mem_mapIdx.1 hq
        exact hp _ (List.getElem_mem _))
    rw [← hpcs] at ho1
    rw [← hbls, ← hcm] at ho3
    exact ⟨o, ho1, ho2, ho3⟩
  obtain ⟨o₁, a1, a2, a3⟩ := key (b := b₁) h₁
  obtain ⟨o₂, c1, c2, c3⟩ := key (b := b₂) h₂
  exact ⟨o₁, o₂, a1, c1, a2, c2, by rw [c3, a3, hc]⟩

set_option maxHeartbeats 1000000 in
/-- A run of the opening stage is also the run of any other circuits that look alike. -/
theorem open_steer (hs : Setup threads pr d) (ht : threads ≠ 0) (hpr : ParamsOk pr)
    (hw : ∀ a : A, ∃ r : F, r • pr.w = a) (hw0 : pr.w ≠ 0) {e : Enc F K A} {cs : Cs F}
    {rng₁ : Rng F} {pk : Pk F} {os₁ : List (Opens (List F × F))} {x : F} {random₁ : List F}
    {pieces₁ : List (List F)} (hos₁ : ∀ o ∈ os₁, o.Sized d.n)
    (hfp : ∀ p ∈ pk.fixedPolys, p.length = d.n) (hpp : ∀ p ∈ pk.permPolys, p.length = d.n)
    (hr₁ : random₁.length = d.n) (hpc₁ : ∀ p ∈ pieces₁, p.length = d.n) {st st' : WState F}
    (h : proverOpen threads e pr d cs rng₁ pk os₁ x random₁ pieces₁ st = .ok ((), st')) :
    ∃ (x₁ x₂ x₃ x₄ xi z : F) (us : List F), us.length = pr.k ∧
      st'.trace = us.reverse ++ z :: xi :: x₄ :: x₃ :: x₂ :: x₁ :: st.trace ∧
      (xi ≠ 0 → us.map (·⁻¹) ≠ unlucky x₃ pr.k → x₃ ^ d.n ≠ x ^ d.n →
        ∀ (T : ℕ → Finset F) (T0 : Finset F), Points d cs x x₃ T T0 →
        ∀ os₂, (∀ o ∈ os₂, o.Sized d.n) → List.Forall₂ (OpensAlike pr T T0) os₁ os₂ →
        ∀ pieces₂ : List (List F), (∀ p ∈ pieces₂, p.length = d.n) → ∀ hBlind : ℕ → F,
          (pieces₂.mapIdx fun i p => commitOf pr (p, hBlind i))
            = (pieces₁.mapIdx fun i p => commitOf pr (p, rng₁.hBlind i)) →
        ∀ h₁ h₂, Verif.Vanishing.recombine threads d (x ^ d.n) pieces₁ = some h₁ →
          Verif.Vanishing.recombine threads d (x ^ d.n) pieces₂ = some h₂ →
          evalPolynomial h₂ x = evalPolynomial h₁ x →
        ∀ (random₂ : List F) (randomBlind : F), random₂.length = d.n →
          commitOf pr (random₂, randomBlind) = commitOf pr (random₁, rng₁.randomBlind) →
          evalPolynomial random₂ x = evalPolynomial random₁ x →
          x₁ * evalPolynomial h₂ x₃ + evalPolynomial random₂ x₃
            = x₁ * evalPolynomial h₁ x₃ + evalPolynomial random₁ x₃ →
        ∃ qBlind ipa, ∀ rng₀ : Rng F, proverOpen threads e pr d cs
          { rng₀ with hBlind := hBlind, randomBlind := randomBlind, qBlind := qBlind, ipa := ipa }
          pk os₂ x random₂ pieces₂ st = .ok ((), st')) := by
  have hn : d.n ≠ 0 := by rw [hs.domain.n_eq]; positivity
  have hn' : pr.n = d.n := hs.n_eq
  unfold proverOpen at h
  obtain ⟨u1, s1, q1, h⟩ := bind_ok h
  obtain ⟨u2, s2, q2, h⟩ := bind_ok h
  obtain ⟨⟨⟩, s3, q3, h⟩ := bind_ok h
  obtain ⟨h₁, hh₁, h⟩ := panics_bind_ok h
  obtain ⟨u4, s4, q4, h⟩ := bind_ok h
  obtain ⟨u5, s5, q5, h⟩ := bind_ok h
  obtain ⟨u6, s6, q6, h⟩ := bind_ok h
  obtain ⟨u7, s7, q7, h⟩ := bind_ok h
  rw [mapErr_ok] at h
  have htr : s7.trace = st.trace := by
    rw [Quiet.mapM (fun o => Quiet.mapM (fun q => Quiet.evalLookup e _ _) _) _ _ _ _ q7,
      Quiet.mapM (fun o => Quiet.evalPermutation e _ _ _) _ _ _ _ q6,
      Quiet.mapM (fun o => Quiet.writeScalar e _) _ _ _ _ q5, Quiet.writeScalar e _ _ _ _ q4,
      Quiet.evalQueries e _ _ _ _ _ _ q3,
      Quiet.mapM (fun o => Quiet.evalQueries e _ _ _) _ _ _ _ q2,
      Quiet.mapM (fun o => Quiet.evalQueries e _ _ _) _ _ _ _ q1]
  have hev : ∀ o ∈ os₁, ∃ ev, circuitEvals d cs x (proofOf o) = some ev := by
    intro o ho
    obtain ⟨_, ⟨⟩, _, k1⟩ := mapM_ok_mem q1 o ho
    obtain ⟨_, ⟨⟩, _, k2⟩ := mapM_ok_mem q2 o ho
    obtain ⟨v1, k1⟩ := evalQueries_some k1
    obtain ⟨v2, k2⟩ := evalQueries_some k2
    unfold circuitEvals
    simp only [proofOf]
    rw [k1, k2]
    exact ⟨_, rfl⟩
  obtain ⟨fe, hfe⟩ := evalQueries_some q3
  have hfq : ∀ q ∈ cs.fixedQueries, q.1 < (pk.fixedPolys.map fun p => (p, (1 : F))).length := by
    intro q hq
    rw [List.length_map]
    exact queryEvals_mem hfe q hq
  have hfl : ∀ p ∈ pk.fixedPolys.map fun p => (p, (1 : F)), p.1.length = d.n := by
    intro p hp
    obtain ⟨q, hq, rfl⟩ := List.mem_map.1 hp
    exact hfp q hq
  have hpl : ∀ p ∈ pk.permPolys.map fun p => (p, (1 : F)), p.1.length = d.n := by
    intro p hp
    obtain ⟨q, hq, rfl⟩ := List.mem_map.1 hp
    exact hpp q hq
  rw [hn'] at hh₁
  have ho₁ : h₁.length = d.n := by
    obtain ⟨o₁, -, a1, -, a2, -⟩ := recombine_alike (pr := pr) (p₂ := pieces₁) (b₁ := rng₁.hBlind)
      (b₂ := rng₁.hBlind) ht hn (x ^ d.n) hpc₁ hpc₁ rfl
    rw [hh₁] at a1
    cases a1
    exact a2
  have hq₁ := proverQueries_ok (fun o ho => ⟨hos₁ o ho, hev o ho⟩) (x := x)
    (pk.fixedPolys.map fun p => (p, (1 : F))) (pk.permPolys.map fun p => (p, (1 : F))) hfl hpl hfq
    (h := (h₁, Verif.Vanishing.recombineBlind (x ^ pr.n) (pieces₁.mapIdx fun i _ => rng₁.hBlind i)))
    (random := (random₁, rng₁.randomBlind)) ho₁ hr₁
  rw [List.length_map] at hq₁
  obtain ⟨x₁, x₂, x₃, x₄, xi, z, us, hus, hst, hgo⟩ := multiopen_hiding ht hpr hw hw0
    (fun q hq => (hq₁ q hq).1.trans hn'.symm) h
  refine ⟨x₁, x₂, x₃, x₄, xi, z, us, hus, by rw [hst, htr], ?_⟩
  intro hxi hul hx3 T T0 hpts os₂ hos₂ hal pieces₂ hpc₂ hBlind hcomm h₁' h₂ hh₁' hh₂ hval random₂
    randomBlind hr₂ hrc hrx hcomb
  rw [hh₁] at hh₁'
  cases hh₁'
  obtain ⟨_, _, a1, c1, -, ho₂, hhc⟩ := recombine_alike (pr := pr) (b₁ := rng₁.hBlind)
      (b₂ := hBlind) ht hn (x ^ d.n) hpc₁ hpc₂ hcomm
  rw [hh₁] at a1
  rw [hh₂] at c1
  cases a1
  cases c1
  have hev₂ : ∀ o ∈ os₂, ∃ ev, circuitEvals d cs x (proofOf o) = some ev := by
    intro o ho
    obtain ⟨o', ho', hoo⟩ := Verif.Plonk.forall₂_right hal o ho
    rw [hoo.circuitEvals hpts]
    exact hev o' ho'
  have hqs := queries_congr (d := d) (cs := cs) (x := x) hal pk.permPolys.length
  have hq₂ := proverQueries_ok (fun o ho => ⟨hos₂ o ho, hev₂ o ho⟩) (x := x)
    (pk.fixedPolys.map fun p => (p, (1 : F))) (pk.permPolys.map fun p => (p, (1 : F))) hfl hpl hfq
    (h := (h₂, Verif.Vanishing.recombineBlind (x ^ pr.n) (pieces₂.mapIdx fun i _ => hBlind i)))
    (random := (random₂, randomBlind)) ho₂ hr₂
  rw [List.length_map, hqs] at hq₂
  have hfr : ∀ q ∈ front d cs x os₁ pk.permPolys.length,
      q ∈ proverQueries d cs x os₁ pk.permPolys.length := by
    intro q hq
    rw [queries_front]
    exact List.mem_append_left _ hq
  have hfa := fun q hq => front_alike hpts hal (by rw [hn']; exact hn) q hq
    ((hq₁ q (hfr q hq)).1.trans hn'.symm) ((hq₂ q (hfr q hq)).1.trans hn'.symm)
  obtain ⟨qBlind, ipa, hrun⟩ := hgo hxi hul (by
      intro q hq he
      rcases (hq₁ q hq).2 with hp | ⟨r, hp⟩
      · exact hx3 (by rw [← he, hp])
      · exact hx3 (by rw [← he, hp, rotate_pow hs.domain]))
    (deref ([], 0) os₂ (pk.fixedPolys.map fun p => (p, 1)) (pk.permPolys.map fun p => (p, 1))
      (h₂, Verif.Vanishing.recombineBlind (x ^ pr.n) (pieces₂.mapIdx fun i _ => hBlind i))
      (random₂, randomBlind)) (by
      intro q hq
      refine ⟨(hq₂ q hq).1.trans hn'.symm, ?_⟩
      rw [queries_front] at hq
      rcases List.mem_append.1 hq with hq | hq
      · have := (hfa q hq).2.2
        exact ⟨this.comm, this.evals _ (by simp)⟩
      · simp only [List.mem_cons, List.not_mem_nil, or_false] at hq
        rcases hq with rfl | rfl
        · refine ⟨?_, hval⟩
          show commitOf pr (h₂, _) = commitOf pr (h₁, _)
          rw [hn']
          exact hhc
        · exact ⟨hrc, hrx⟩)
    (by
      intro cds ps hc s
      rw [queries_front] at hc
      exact horner_tail (a := Ptr.h) (b := Ptr.random) (x := x) (x₁ := x₁) nofun
        (fun q hq => (hfa q hq).1) (fun q hq => (hfa q hq).2.1)
        (f₁ := fun p => evalPolynomial (deref ([], 0) os₁ (pk.fixedPolys.map fun p => (p, 1))
          (pk.permPolys.map fun p => (p, 1)) (h₁, Verif.Vanishing.recombineBlind (x ^ pr.n)
            (pieces₁.mapIdx fun i _ => rng₁.hBlind i)) (random₁, rng₁.randomBlind) p).1 x₃)
        (f₂ := fun p => evalPolynomial (deref ([], 0) os₂ (pk.fixedPolys.map fun p => (p, 1))
          (pk.permPolys.map fun p => (p, 1)) (h₂, Verif.Vanishing.recombineBlind (x ^ pr.n)
            (pieces₂.mapIdx fun i _ => hBlind i)) (random₂, randomBlind) p).1 x₃)
        (fun q hq => (hfa q hq).2.2.evals _ (by simp)) hcomb hc s)
  refine ⟨qBlind, ipa, fun rng₀ => ?_⟩
  unfold proverOpen
  have e1 : (os₂.mapM fun (o : Opens (List F × F)) =>
      evalQueries e d x cs.instanceQueries (o.inst.map Prod.fst)) =
      os₁.mapM fun (o : Opens (List F × F)) =>
        evalQueries e d x cs.instanceQueries (o.inst.map Prod.fst) :=
    mapM_forall₂ (fun a b hab => by rw [hab.inst]) hal
  have e2 : (os₂.mapM fun (o : Opens (List F × F)) =>
      evalQueries e d x cs.adviceQueries (o.advice.map Prod.fst)) =
      os₁.mapM fun (o : Opens (List F × F)) =>
        evalQueries e d x cs.adviceQueries (o.advice.map Prod.fst) :=
    mapM_forall₂ (fun a b hab => by unfold evalQueries; rw [hab.queryEvals hpts]) hal
  have e6 : (os₂.mapM fun (o : Opens (List F × F)) =>
      evalPermutation e d cs.blindingFactors x (o.permutation.map Prod.fst)) =
      os₁.mapM fun (o : Opens (List F × F)) =>
        evalPermutation e d cs.blindingFactors x (o.permutation.map Prod.fst) :=
    mapM_forall₂ (fun a b hab => evalPermutation_congr e hpts hab.permutation) hal
  have e7 : (os₂.mapM fun (o : Opens (List F × F)) =>
      o.lookups.mapM fun (q : (List F × F) × (List F × F) × (List F × F)) =>
        evalLookup e d x (q.1.1, q.2.1.1, q.2.2.1)) =
      os₁.mapM fun (o : Opens (List F × F)) =>
        o.lookups.mapM fun (q : (List F × F) × (List F × F) × (List F × F)) =>
          evalLookup e d x (q.1.1, q.2.1.1, q.2.2.1) :=
    mapM_forall₂ (fun a b hab => evalLookups_congr e hpts hab) hal
  refine ok_bind (by rw [e1]; exact q1) (ok_bind (by rw [e2]; exact q2) (ok_bind q3 ?_))
  refine ok_bind (ok_panics (by rw [hn']; exact hh₂) s3) (ok_bind (by rw [hrx]; exact q4)
    (ok_bind q5 (ok_bind (by rw [e6]; exact q6) (ok_bind (by rw [e7]; exact q7) ?_))))
  rw [mapErr_ok, hqs]
  exact hrun

end Verif.Hiding
