import Verif.Sound.Verifier

/-!
# From the challenge `x` to the guard
-/

namespace Verif.Sound

open Verif.Cs (Cs Column)
open Verif.Domain (Domain)
open Verif.Msm Verif.PolyArith Verif.Transcript Verif.Protocol Polynomial
open Verif.Plonk (CircuitProof CircuitEvals queryEvals circuitEvals)
open Verif.Multiopen (Query Commitment commitOf)
open Verif.Ipa (ParamsOk)

variable {F K A : Type} [Field F] [AddCommGroup A] [Module F A]

/-! ## The number of queries -/

section
variable {d : Domain F} {cs : Cs F} {x : F}

theorem mapM_length {α β : Type*} {f : α → Option β} {l : List α} {r : List β}
    (h : l.mapM f = some r) : r.length = l.length := by
  induction l generalizing r with
  | nil => cases h; rfl
  | cons a l ih =>
    rw [List.mapM_cons] at h
    obtain ⟨b, -, h⟩ := Option.bind_eq_some_iff.1 h
    obtain ⟨t, h2, h⟩ := Option.bind_eq_some_iff.1 h
    cases h
    simp [ih h2]

/-- The number of queries of one circuit. -/
def circuitQueryCount (cs : Cs F) (sets lookups : ℕ) : ℕ :=
  cs.instanceQueries.length + cs.adviceQueries.length + (3 * sets - 1) + 5 * lookups

/-- The number of queries of a proof. -/
def queryCount (cs : Cs F) (numProofs : ℕ) : ℕ :=
  numProofs * circuitQueryCount cs (Verif.Permutation.numSets cs.degree cs.permutation)
    cs.lookups.length + cs.fixedQueries.length + cs.permutation.length + 2

omit [AddCommGroup A] [Module F A] in
theorem circuitQueries_length {i : ℕ} {o : Opens A}
    {ev : CircuitEvals F} {qs : List (Query F Ptr F)} (h : circuitQueries d cs x o ev i = some qs)
    (hs : EvalsShape cs o ev) :
    qs.length = circuitQueryCount cs o.permutation.length o.lookups.length := by
  unfold circuitQueries at h
  obtain ⟨q1, h1, h⟩ := Option.bind_eq_some_iff.1 h
  obtain ⟨q2, h2, h⟩ := Option.bind_eq_some_iff.1 h
  obtain ⟨q3, h3, rfl⟩ := Option.map_eq_some_iff.1 h
  have l1 := mapM_length h1
  have l2 := mapM_length h2
  obtain ⟨la, h4, rfl⟩ := Option.map_eq_some_iff.1 h3
  have l3 := mapM_length h4
  simp only [List.length_zipIdx] at l1 l2
  simp only [List.length_drop, List.length_reverse, List.length_zipIdx] at l3
  have e1 : (ev.permutation.zipIdx.flatMap fun q =>
      ([⟨x, .perm i q.2, q.1.eval⟩, ⟨d.rotateOmega x 1, .perm i q.2, q.1.next⟩] :
        List (Query F Ptr F))).length = 2 * ev.permutation.length := by
    rw [List.length_flatMap]
    simp [mul_comm]
  have e2 : (ev.lookups.zipIdx.flatMap (lookupQueries d x i)).length = 5 * ev.lookups.length := by
    rw [List.length_flatMap]
    simp [lookupQueries, mul_comm]
  have h5 := hs.perm
  have h6 := hs.lookups
  simp only [List.length_append, e2, l1, l2, l3, circuitQueryCount]
  rw [e1]
  omega

omit [AddCommGroup A] [Module F A] in
theorem verifierQueries_length {vk : Vk F A} {os : List (Opens A)}
    {evs : List (CircuitEvals F)} {fe pe : List F} {hE rE : F} {qs : List (Query F Ptr F)}
    (h : verifierQueries d cs x vk os evs fe pe hE rE = some qs)
    (hs : List.Forall₂ (EvalsShape cs) os evs)
    (hpe : pe.length = vk.permCommitments.length)
    (hvk : vk.permCommitments.length = cs.permutation.length)
    (hsets : ∀ o ∈ os, o.permutation.length = Verif.Permutation.numSets cs.degree cs.permutation ∧
      o.lookups.length = cs.lookups.length) :
    qs.length = queryCount cs os.length := by
  unfold verifierQueries at h
  obtain ⟨q1, h1, h⟩ := Option.bind_eq_some_iff.1 h
  obtain ⟨q2, h2, rfl⟩ := Option.map_eq_some_iff.1 h
  have l1 := mapM_length h1
  have l2 := mapM_length h2
  have l0 := hs.length_eq
  simp only [List.length_zipIdx, List.length_zip] at l1 l2
  have e1 : q1.flatten.length = os.length * circuitQueryCount cs
      (Verif.Permutation.numSets cs.degree cs.permutation) cs.lookups.length := by
    rw [List.length_flatten, List.eq_replicate_of_mem (a := circuitQueryCount cs
      (Verif.Permutation.numSets cs.degree cs.permutation) cs.lookups.length)
      (l := q1.map List.length), List.sum_replicate, List.length_map, l1, ← l0, min_self, smul_eq_mul]
    intro b hb
    obtain ⟨qs, hqs, rfl⟩ := List.mem_map.1 hb
    obtain ⟨i, hi, rfl⟩ := List.getElem_of_mem hqs
    have ho : i < os.length := by omega
    have hev : i < evs.length := by omega
    obtain ⟨qs, h3, h4⟩ := mapM_getElem? h1 i ((os[i], evs[i]), i) (by
      rw [List.getElem?_zipIdx, List.getElem?_zip_eq_some (z := (os[i], evs[i])).2
        ⟨List.getElem?_eq_getElem ho, List.getElem?_eq_getElem hev⟩]; simp)
    rw [List.getElem?_eq_getElem hi] at h4
    cases h4
    rw [circuitQueries_length h3 ((List.forall₂_iff_get.1 hs).2 i ho hev)]
    obtain ⟨g1, g2⟩ := hsets _ (List.getElem_mem ho)
    rw [g1, g2]
  simp only [List.length_append, e1, l2, List.length_map, List.length_zipIdx, List.length_zip, hpe,
    hvk, min_self, queryCount, List.length_cons, List.length_nil]

end

/-! ## The accumulator of the quotient -/

variable [Field K] [LinearOrder K] {e : Enc F K A} {pr : Params A} {N : ℕ → ℕ}
  {S : Set (A → Comb F)}

/-- The combination of the pieces of the quotient. -/
noncomputable def hComb (ρ : A → Comb F) (xn : F) (h : List A) : Comb F :=
  h.foldr (fun c acc => xn • acc + ρ c) 0

theorem hCommitment_reps (he : e.Valid) {rep : A → Comb F} (hr : Algebraic pr rep) {xn : F}
    {h : List A} {m : MSM F K} (hm : hCommitment e xn h = some m) :
    Reps e.toCoords pr rep m (hComb rep xn h) := by
  unfold hCommitment at hm
  rw [List.foldlM_reverse] at hm
  induction h generalizing m with
  | nil => cases hm; exact reps_new
  | cons c h ih =>
    rw [List.foldrM_cons] at hm
    obtain ⟨m', h1, h2⟩ := Option.bind_eq_some_iff.1 hm
    obtain ⟨m'', h3, h4⟩ := reps_append he.coords_valid hr (reps_scale (ih h1) xn) 1 c
    obtain rfl : m = m'' := Option.some.inj (h2.symm.trans h3)
    rw [one_smul] at h4
    exact h4

omit [Field K] [LinearOrder K] in
theorem hComb_degree {rep : A → Comb F} (hr : Algebraic pr rep) (hn : 0 < pr.n) (xn : F) (h : List A) :
    (hComb rep xn h).1.degree < pr.n := by
  induction h with
  | nil => simp [hComb]
  | cons c h ih =>
    exact (degree_add_le _ _).trans_lt (max_lt ((degree_smul_le _ _).trans_lt ih) (hr.degree c))

/-! ## What the pointers stand for -/

omit [Module F A] in
theorem deref_represents {rep : A → Comb F} (h0 : rep 0 = 0) {cv : Coords K A} {hm : MSM F K}
    {hc : Comb F} (hh : Reps cv pr rep hm hc) (os : List (Opens A)) (fixed perm : List A) (random : A)
    (ptr : Ptr) :
    Represents cv pr rep
      (deref (.commitment 0)
        (os.map fun c => { inst := c.inst.map .commitment, advice := c.advice.map .commitment
                           permutation := c.permutation.map .commitment
                           lookups := c.lookups.map fun q =>
                            (.commitment q.1, .commitment q.2.1, .commitment q.2.2) })
        (fixed.map .commitment) (perm.map .commitment) (.msm hm) (.commitment random) ptr)
      (derefRep rep os fixed perm hc random ptr) := by
  have key : ∀ o : Option A, Represents cv pr rep ((o.map Commitment.commitment).getD (.commitment 0))
      ((o.map rep).getD 0) := by
    rintro (_ | p)
    · exact h0
    · rfl
  have key2 : ∀ (i : ℕ) (f : Opens A → Option A)
      (g : Opens (Commitment F K A) → Option (Commitment F K A)) (k : Opens (Comb F) → Option (Comb F))
      (G : Opens A → Opens (Commitment F K A)),
      (∀ o, g (G o) = (f o).map Commitment.commitment) → (∀ o, k (Opens.map rep o) = (f o).map rep) →
      Represents cv pr rep ((((os.map G)[i]?).bind g).getD (.commitment 0))
        ((((os.map (Opens.map rep))[i]?).bind k).getD 0) := by
    intro i f g k G hg hk
    rw [List.getElem?_map, List.getElem?_map]
    rcases os[i]? with _ | o
    · exact h0
    · rw [Option.map_some, Option.map_some, Option.bind_some, Option.bind_some, hg, hk]
      exact key _
  cases ptr with
  | inst i c => exact key2 i (fun o => o.inst[c]?) _ _ _ (by simp) (by simp [Opens.map])
  | advice i c => exact key2 i (fun o => o.advice[c]?) _ _ _ (by simp) (by simp [Opens.map])
  | perm i c => exact key2 i (fun o => o.permutation[c]?) _ _ _ (by simp) (by simp [Opens.map])
  | lookupZ i c =>
    exact key2 i (fun o => (o.lookups[c]?).map fun q => q.1) _ _ _
      (by intro o; simp; rfl) (by intro o; simp [Opens.map]; rfl)
  | lookupA i c =>
    exact key2 i (fun o => (o.lookups[c]?).map fun q => q.2.1) _ _ _
      (by intro o; simp; rfl) (by intro o; simp [Opens.map]; rfl)
  | lookupS i c =>
    exact key2 i (fun o => (o.lookups[c]?).map fun q => q.2.2) _ _ _
      (by intro o; simp; rfl) (by intro o; simp [Opens.map]; rfl)
  | fixed c =>
    simp only [deref, derefRep, List.getD_eq_getElem?_getD, List.getElem?_map]
    exact key _
  | permCommon c =>
    simp only [deref, derefRep, List.getD_eq_getElem?_getD, List.getElem?_map]
    exact key _
  | h => exact hh
  | random => rfl

omit [Field K] [LinearOrder K] in
theorem derefRep_degree {rep : A → Comb F} (hr : Algebraic pr rep) (hn : 0 < pr.n)
    {hc : Comb F} (hh : hc.1.degree < pr.n) (os : List (Opens A)) (fixed perm : List A) (random : A)
    (ptr : Ptr) : (derefRep rep os fixed perm hc random ptr).1.degree < pr.n := by
  have h0 : ((0 : Comb F)).1.degree < pr.n := by simp
  have key : ∀ o : Option A, ((o.map rep).getD 0).1.degree < pr.n := by
    rintro (_ | p)
    · exact h0
    · exact hr.degree p
  have key2 : ∀ (i : ℕ) (f : Opens A → Option A) (k : Opens (Comb F) → Option (Comb F)),
      (∀ o, k (Opens.map rep o) = (f o).map rep) →
      ((((os.map (Opens.map rep))[i]?).bind k).getD 0).1.degree < pr.n := by
    intro i f k hk
    rw [List.getElem?_map]
    rcases os[i]? with _ | o
    · exact h0
    · rw [Option.map_some, Option.bind_some, hk]
      exact key _
  cases ptr with
  | inst i c => exact key2 i (fun o => o.inst[c]?) _ (by simp [Opens.map])
  | advice i c => exact key2 i (fun o => o.advice[c]?) _ (by simp [Opens.map])
  | perm i c => exact key2 i (fun o => o.permutation[c]?) _ (by simp [Opens.map])
  | lookupZ i c =>
    exact key2 i (fun o => (o.lookups[c]?).map fun q => q.1) _ (by intro o; simp [Opens.map]; rfl)
  | lookupA i c =>
    exact key2 i (fun o => (o.lookups[c]?).map fun q => q.2.1) _ (by intro o; simp [Opens.map]; rfl)
  | lookupS i c =>
    exact key2 i (fun o => (o.lookups[c]?).map fun q => q.2.2) _ (by intro o; simp [Opens.map]; rfl)
  | fixed c =>
    simp only [deref, derefRep, List.getD_eq_getElem?_getD, List.getElem?_map]
    exact key _
  | permCommon c =>
    simp only [deref, derefRep, List.getD_eq_getElem?_getD, List.getElem?_map]
    exact key _
  | h => exact hh
  | random => exact hr.degree _

/-! ## The rest of the verifier -/

omit [AddCommGroup A] [Module F A] in
theorem evalsShapes {cs : Cs F} {os : List (Opens A)} {a b : List (List F)}
    {p : List (List (Verif.Permutation.SetEvals F))} {l : List (List (Verif.Lookup.Evals F))}
    (ha : List.Forall₂ (fun _ as => as.length = cs.instanceQueries.length) os a)
    (hb : List.Forall₂ (fun _ as => as.length = cs.adviceQueries.length) os b)
    (hp : List.Forall₂ (fun (o : Opens A) as => as.length = o.permutation.length ∧ PermShape as) os p)
    (hl : List.Forall₂ (fun (o : Opens A) as => as.length = o.lookups.length) os l) :
    List.Forall₂ (EvalsShape cs) os (((b.zip a).zip (p.zip l)).map fun q =>
      ({ advice := q.1.1, inst := q.1.2, permutation := q.2.1, lookups := q.2.2 } :
        CircuitEvals F)) := by
  induction ha generalizing b p l with
  | nil =>
    cases hb; cases hp; cases hl
    exact .nil
  | cons h _ ih =>
    cases hb with
    | cons hb hbs =>
      cases hp with
      | cons hp hps =>
        cases hl with
        | cons hl hls => exact .cons ⟨hb, h, hp.1, hp.2, hl⟩ (ih hbs hps hls)

variable [LinearOrder F]

theorem Logs.verifierOpen {d : Domain F} {cs : Cs F} {delta : F} {vk : Vk F A} {r : Read F A}
    {msm : MSM F K} :
    Logs (Comb F) e (Verif.Protocol.verifierOpen e pr d cs delta vk r msm) := by
  unfold Verif.Protocol.verifierOpen
  logs

macro_rules | `(tactic| logs_ext) => `(tactic| exact Logs.verifierOpen)

/-- If no evaluations at `x` pass the verifier's check, the rest of the verifier is doomed. -/
theorem open_doomed (he : e.Valid) (hpr : ParamsOk pr) {d : Domain F} {cs : Cs F} {delta : F}
    {vk : Vk F A} (hvk : vk.permCommitments.length = cs.permutation.length) {r : Read F A}
    (hsets : ∀ o ∈ r.comms, o.permutation.length = Verif.Permutation.numSets cs.degree cs.permutation ∧
      o.lookups.length = cs.lookups.length)
    (hA : ∀ rep ∈ S, Algebraic pr rep) (hne : S.Nonempty)
    (s1 : Settled S fun rep => r.comms.map (Opens.map rep))
    (s2 : Settled S fun rep => vk.fixedCommitments.map rep)
    (s3 : Settled S fun rep => vk.permCommitments.map rep)
    (s4 : Settled S fun rep => r.h.map rep) (s5 : Settled S fun rep => rep r.random) {i : ℕ}
    (hN : MultiBounds pr N i (queryCount cs r.comms.length))
    (hbad : ∀ rep ∈ S, ∀ fe evs hE,
      queryEvals d r.x (vk.fixedCommitments.map fun p => coeffsOf pr.n (rep p)) cs.fixedQueries
        = some fe →
      (r.comms.map (opened pr.n rep)).mapM (circuitEvals d cs r.x) = some evs →
      Verif.Plonk.expectedH d cs delta ⟨r.theta, r.beta, r.gamma, r.y⟩ r.x fe
        ((vk.permCommitments.map fun p => coeffsOf pr.n (rep p)).map fun p => evalPolynomial p r.x) evs
        = some hE →
      (hComb rep (r.x ^ pr.n) r.h).1.eval r.x ≠ hE) :
    Doomed e N i S (fun h => Verif.Protocol.verifierOpen (withHash e h) pr d cs delta vk r MSM.new)
      fun gd _ S' => ∀ rep ∈ S', GuardBad e pr rep gd := by
  have hn := hpr.ok.pos
  unfold Verif.Protocol.verifierOpen
  refine (Doomed.kindM r.comms (fun _ h => R.readNScalars (withHash e h) cs.instanceQueries.length)
    (fun _ as => as.length = cs.instanceQueries.length)
    (fun k _ S' => Doomed.readNScalars _)).bind ?_
  rintro a _ S₁ ⟨ha, rfl, hS₁⟩
  refine (Doomed.kindM r.comms (fun _ h => R.readNScalars (withHash e h) cs.adviceQueries.length)
    (fun _ as => as.length = cs.adviceQueries.length)
    (fun k _ S' => Doomed.readNScalars _)).bind ?_
  rintro b _ S₂ ⟨hb, rfl, hS₂⟩
  refine (Doomed.readNScalars _).bind ?_
  rintro fe _ S₃ ⟨hfe, rfl, hS₃⟩
  refine Doomed.readScalar.bind ?_
  rintro rE _ S₃ ⟨rfl, rfl⟩
  refine (Doomed.kindM vk.permCommitments (fun _ h => R.readScalar (withHash e h))
    (fun _ _ => True) (fun k _ S' => Doomed.readScalarS)).bind ?_
  rintro pe _ S₄ ⟨hpe, rfl, hS₄⟩
  refine (Doomed.kindM r.comms (fun c h => Verif.Protocol.readPermutation (withHash e h) c.permutation)
    (fun c as => as.length = c.permutation.length ∧ PermShape as)
    (fun k _ S' => Doomed.readPermutation _)).bind ?_
  rintro p _ S₅ ⟨hp, rfl, hS₅⟩
  refine (Doomed.kindM r.comms
    (fun c h => c.lookups.mapM fun _ => Verif.Protocol.readLookup (withHash e h))
    (fun c as => as.length = c.lookups.length)
    (fun k _ S' => (Doomed.kindM k.lookups (fun _ h => Verif.Protocol.readLookup (withHash e h))
      (fun _ _ => True) (fun _ _ S'' => Doomed.readLookup)).mono ?_)).bind ?_
  · rintro as j S'' ⟨h1, h2, h3⟩
    exact ⟨h1.length_eq.symm, h2, h3⟩
  rintro l _ S₆ ⟨hl, rfl, hS₆⟩
  have hS := ((((hS₁.trans hS₂).trans hS₃).trans hS₄).trans hS₅).trans hS₆
  clear hS₁ hS₂ hS₃ hS₄ hS₅ hS₆
  have hshape := evalsShapes ha hb hp hl
  dsimp only
  refine (Doomed.check _ _).bind ?_
  rintro _ _ S₇ ⟨-, rfl, rfl⟩
  refine (Doomed.panics _).bind ?_
  rintro hE _ S₇ ⟨hhE, rfl, rfl⟩
  refine Doomed.bind (Doomed.panics (hCommitment e (r.x ^ pr.n) r.h)) ?_
  rintro hm _ S₇ ⟨hhm, rfl, rfl⟩
  refine (Doomed.panics _).bind ?_
  rintro qs _ S₇ ⟨hqs, rfl, rfl⟩
  obtain ⟨ρ, hρ⟩ := hS.ne hne
  have hρS := hS.sub hρ
  have hlen := verifierQueries_length hqs hshape hpe.length_eq.symm hvk hsets
  have hwrong : ∃ q ∈ qs, ¬ Right (derefRep ρ r.comms vk.fixedCommitments vk.permCommitments
      (hComb ρ (r.x ^ pr.n) r.h) r.random) q := by
    by_contra hcon
    push Not at hcon
    obtain ⟨g1, g2, g3, g4⟩ := verifierQueries_right (n := pr.n) (hA ρ hρS).degree hqs hshape hfe
      hpe.length_eq.symm hcon
    rw [g3] at hhE
    exact hbad ρ hρS _ _ _ g1 g2 hhE g4
  obtain ⟨q, hq, hqne⟩ := hwrong
  refine (Doomed.mapErr (multiopen_doomed he hpr (fun rep h => hA rep (hS.sub h)) (P := derefRep ρ
    r.comms vk.fixedCommitments vk.permCommitments (hComb ρ (r.x ^ pr.n) r.h) r.random) ⟨?_, ?_⟩
    (by rw [hlen]; exact hN) hq hqne)).mono ?_
  · intro rep hrep q _
    have heq : derefRep rep r.comms vk.fixedCommitments vk.permCommitments
        (hComb rep (r.x ^ pr.n) r.h) r.random
        = derefRep ρ r.comms vk.fixedCommitments vk.permCommitments
        (hComb ρ (r.x ^ pr.n) r.h) r.random := by
      have hh : hComb rep (r.x ^ pr.n) r.h = hComb ρ (r.x ^ pr.n) r.h := by
        have := s4.eq (hS.sub hrep) hρS
        have hg : ∀ ρ : A → Comb F, hComb ρ (r.x ^ pr.n) r.h
            = (r.h.map ρ).foldr (fun c acc => r.x ^ pr.n • acc + c) 0 := by
          intro ρ; rw [List.foldr_map]; rfl
        rw [hg, hg, this]
      unfold derefRep
      rw [s1.eq (hS.sub hrep) hρS, s2.eq (hS.sub hrep) hρS, s3.eq (hS.sub hrep) hρS,
        s5.eq (hS.sub hrep) hρS, hh]
    rw [← heq]
    have hal := hA rep (hS.sub hrep)
    exact deref_represents hal.zero (hCommitment_reps he hal hhm) _ _ _ _ _
  · intro q _
    exact derefRep_degree (hA ρ hρS) hn (hComb_degree (hA ρ hρS) hn _ _) _ _ _ _ _
  · rintro gd j S' ⟨h1, -, -⟩
    exact h1

end Verif.Sound
