import Verif.Multiopen.Lemmas
import Verif.Toy.Props

/-!
# C25: multipoint opening
-/

namespace Verif.Multiopen

open Verif.Msm Verif.Transcript Verif.Multicore Verif.PolyArith Verif.Vanishing Verif.Ipa Polynomial

variable {F K A ι : Type} [Field F] [DecidableEq F] [Field K] [LinearOrder K] [AddCommGroup A]
  [Module F A] [DecidableEq ι] {Good : List F → Prop} {tr : List F}

/-- The point a commitment or an accumulator stands for. -/
def Denotes (cv : Coords K A) (pr : Params A) (m : Commitment F K A) (P : A) : Prop :=
  match m with
  | .commitment c => c = P
  | .msm m => Holds cv pr m P

/-- The commitment to a polynomial with a blinding factor. -/
def commitOf (pr : Params A) (pb : List F × F) : A := dot pb.1 pr.g + pb.2 • pr.w

omit [DecidableEq F] in
theorem horner_map {B α β : Type} [AddCommGroup B] [Module F B] (x : F) (v : β → B) (f : α → β)
    (l : List α) : horner x v (l.map f) = horner x (fun a => v (f a)) l := by
  simp [horner, List.foldl_map]

omit [DecidableEq F] in
theorem horner_congr {B α : Type} [AddCommGroup B] [Module F B] (x : F) (v w : α → B)
    (l : List α) (h : ∀ a ∈ l, v a = w a) : horner x v l = horner x w l := by
  induction l using List.reverseRecOn with
  | nil => rfl
  | append_singleton l a ih =>
    rw [horner_snoc, horner_snoc, ih fun a ha => h a (by simp [ha]), h a (by simp)]

omit [DecidableEq F] [DecidableEq ι] in
/-- The prover's combination of the polynomials of one set. -/
theorem accPoly_fold (threads : ℕ) (ht : threads ≠ 0) (pr : Params A) (hn : 0 < pr.n)
    (mem : ι → List F × F) (x₁ : F) (l : List (CommitmentData ι Unit))
    (hl : ∀ cd ∈ l, (mem cd.commitment).1.length = pr.n) :
    ∃ st, l.foldlM (fun st cd => accPoly threads mem x₁ cd st) (none, 0) = some st ∧
      (l = [] → st = (none, 0)) ∧
      (l ≠ [] → ∃ Q, st.1 = some Q ∧ Q.length = pr.n ∧
        (∀ y, evalPolynomial Q y
          = horner x₁ (fun cd => evalPolynomial (mem cd.commitment).1 y) l) ∧
        commitOf pr (Q, st.2) = horner x₁ (fun cd => commitOf pr (mem cd.commitment)) l) := by
  induction l using List.reverseRecOn with
  | nil => exact ⟨_, rfl, fun _ => rfl, fun h => absurd rfl h⟩
  | append_singleton l a ih =>
    obtain ⟨st, h1, h2, h3⟩ := ih fun cd hcd => hl cd (by simp [hcd])
    have ha : (mem a.commitment).1.length = pr.n := hl a (by simp)
    rw [List.foldlM_append, h1, Option.bind_eq_bind, Option.bind_some]
    simp only [List.foldlM_cons, List.foldlM_nil, Option.bind_eq_bind, Option.pure_def,
      Option.bind_some]
    by_cases hnil : l = []
    · subst hnil
      rw [h2 rfl]
      refine ⟨_, rfl, fun h => by simp at h, fun _ => ⟨_, rfl, ha, fun y => ?_, ?_⟩⟩
      · simp [horner]
      · simp [horner, commitOf]
    · obtain ⟨Q, h4, h5, h6, h7⟩ := h3 hnil
      have hQ : Q ≠ [] := by intro h; rw [h] at h5; simp at h5; omega
      have hmul := polyMul_eq threads ht Q hQ x₁
      have hadd := polyAdd_eq threads ht (Q.map (· * x₁)) (mem a.commitment).1 (by simpa using hQ)
        (by simp [h5, ha])
      refine ⟨(some (List.zipWith (· + ·) (Q.map (· * x₁)) (mem a.commitment).1),
        st.2 * x₁ + (mem a.commitment).2), by
        simp only [accPoly, h4, hmul, hadd, Option.bind_some, Option.map_some], fun h => by simp at h, fun _ => ⟨_, rfl, ?_, fun y => ?_, ?_⟩⟩
      · simp [h5, ha]
      · rw [horner_snoc, ← h6, evalPolynomial_eq, toPoly_zipWith_add (by simp [h5, ha]),
          toPoly_map_mul, eval_add, eval_mul, evalPolynomial_eq, evalPolynomial_eq]
        simp [mul_comm]
      · rw [horner_snoc, ← h7]
        simp only [commitOf]
        rw [dot_zipWith_add _ _ _ (by simp [h5, ha]), dot_map_mul]
        module

theorem zipUpdate_getD (x : F) (s e : List F) (h : s.length = e.length) :
    (Evaluator.zipUpdate (fun s e => s + e * x) s e).length = s.length ∧
    ∀ i : ℕ, (Evaluator.zipUpdate (fun s e => s + e * x) s e).getD i 0
      = s.getD i 0 + e.getD i 0 * x := by
  induction s generalizing e with
  | nil => cases e <;> simp_all [Evaluator.zipUpdate]
  | cons a s ih =>
    rcases e with _ | ⟨b, e⟩
    · simp at h
    · obtain ⟨h1, h2⟩ := ih e (by simpa using h)
      refine ⟨by simp [Evaluator.zipUpdate, h1], fun i => ?_⟩
      cases i with
      | zero => simp [Evaluator.zipUpdate]
      | succ i => simpa [Evaluator.zipUpdate] using h2 i

omit [DecidableEq ι] in
/-- The verifier's combination of the commitments of one set, in the opposite order. -/
theorem accCommitment_fold {cv : Coords K A} (hv : cv.Valid) (pr : Params A)
    (mem : ι → Commitment F K A) (P : ι → A) (x₁ : F) (m : ℕ) (l : List (CommitmentData ι F))
    (hl : ∀ cd ∈ l, cd.evals.length = m ∧ Denotes cv pr (mem cd.commitment) (P cd.commitment)) :
    ∃ msm evs, l.reverse.foldlM (fun st cd => accCommitment cv pr mem x₁ cd st)
        (MSM.new, 1, List.replicate m 0) = some (msm, x₁ ^ l.length, evs) ∧
      Holds cv pr msm (horner x₁ (fun cd => P cd.commitment) l) ∧ evs.length = m ∧
      ∀ i : ℕ, evs.getD i 0 = horner x₁ (fun cd => cd.evals.getD i 0) l := by
  induction l with
  | nil =>
    refine ⟨MSM.new, List.replicate m 0, by simp, holds_new _ _, by simp, fun i => ?_⟩
    simp only [horner, List.foldl_nil]
    rw [List.getD_eq_getElem?_getD, List.getElem?_replicate]
    split_ifs <;> rfl
  | cons a l ih =>
    obtain ⟨msm, evs, h1, h2, h3, h4⟩ := ih fun cd hcd => hl cd (by simp [hcd])
    obtain ⟨ha1, ha2⟩ := hl a (by simp)
    have key : ∃ m', accCommitment cv pr mem x₁ a (msm, x₁ ^ l.length, evs) = some (m',
        x₁ ^ l.length * x₁, Evaluator.zipUpdate (fun s e => s + e * x₁ ^ l.length) evs a.evals) ∧
        Holds cv pr m' (horner x₁ (fun cd => P cd.commitment) l + x₁ ^ l.length • P a.commitment) := by
      revert ha2
      unfold accCommitment
      cases mem a.commitment with
      | commitment c =>
        rintro rfl
        obtain ⟨m', g1, g2⟩ := holds_append hv h2 (x₁ ^ l.length) (P a.commitment)
        exact ⟨m', by simp only [g1, Option.map_some], g2⟩
      | msm m =>
        intro hm
        obtain ⟨m', g1, g2⟩ := holds_add hv h2 (holds_scale hm (x₁ ^ l.length))
        exact ⟨m', by simp only [g1, Option.map_some], g2⟩
    obtain ⟨m', h5, h6⟩ := key
    obtain ⟨h7, h8⟩ := zipUpdate_getD (x₁ ^ l.length) evs a.evals (by rw [h3, ha1])
    refine ⟨m', _, ?_, ?_, h7.trans h3, fun i => ?_⟩
    · rw [List.reverse_cons, List.foldlM_append, h1, Option.bind_eq_bind, Option.bind_some]
      simp only [List.foldlM_cons, List.foldlM_nil, Option.bind_eq_bind, Option.pure_def]
      rw [h5]
      simp [pow_succ]
    · rw [horner_cons, add_comm]; exact h6
    · rw [h8, h4, horner_cons, smul_eq_mul]; ring

/-! ## Both sides, set by set -/

/-- Prover's and verifier's data of one set of points. -/
structure Slot (F K : Type) where
  pts : List F
  Q : List F
  b : F
  msm : MSM F K
  pow : F
  evs : List F

/-- The verifier's data denote the commitment to the prover's combined polynomial and its values
at the points. -/
structure Slot.Ok (cv : Coords K A) (pr : Params A) (d : Slot F K) : Prop where
  nodup : d.pts.Nodup
  len : d.Q.length = pr.n
  holds : Holds cv pr d.msm (commitOf pr (d.Q, d.b))
  evs_len : d.pts.length = d.evs.length
  evs : ∀ i (hi : i < d.pts.length), d.evs.getD i 0 = evalPolynomial d.Q d.pts[i]

theorem slots {cv : Coords K A} (hv : cv.Valid) (threads : ℕ) (ht : threads ≠ 0) (pr : Params A)
    (hn : 0 < pr.n) (memP : ι → List F × F) (memV : ι → Commitment F K A) (x₁ : F)
    (qp : List (Query F ι Unit)) (qv : List (Query F ι F))
    (hkeys : qp.map (fun q => (q.commitment, q.point)) = qv.map fun q => (q.commitment, q.point))
    (hlen : ∀ q ∈ qp, (memP q.commitment).1.length = pr.n)
    (hden : ∀ q ∈ qv, Denotes cv pr (memV q.commitment) (commitOf pr (memP q.commitment)))
    (hev : ∀ q ∈ qv, q.eval = evalPolynomial (memP q.commitment).1 q.point) :
    ∃ data : List (Slot F K),
      (setsOf qp).map (ptsOf qp) = data.map Slot.pts ∧
      (setsOf qv).map (ptsOf qv) = data.map Slot.pts ∧
      accumulate CommitmentData.setIndex (accPoly threads memP x₁)
        (List.replicate (data.map Slot.pts).length (none, 0)) ((commitmentsOf qp).map (cdOf qp))
        = some (data.map fun d => (some d.Q, d.b)) ∧
      accumulate CommitmentData.setIndex (accCommitment cv pr memV x₁)
        ((data.map Slot.pts).map fun ps => (MSM.new, 1, List.replicate ps.length 0))
        ((commitmentsOf qv).map (cdOf qv)).reverse
        = some (data.map fun d => (d.msm, d.pow, d.evs)) ∧
      ∀ d ∈ data, d.Ok cv pr ∧ ∀ x ∈ d.pts, ∃ q ∈ qp, q.point = x := by
  obtain ⟨hP, hC, hS, hSs⟩ := sets_congr qp qv hkeys
  have hpts : ptsOf qp = ptsOf qv := by funext s; unfold ptsOf; rw [hP]
  rw [← hSs, ← hpts, ← hC]
  have hmemP : ∀ c ∈ commitmentsOf qp, ∃ q ∈ qp, q.commitment = c := fun c hc =>
    List.mem_map.1 ((mem_firsts _ _).1 hc)
  have hmemV : ∀ c ∈ commitmentsOf qp, ∃ q ∈ qv, q.commitment = c := fun c hc => by
    rw [hC] at hc; exact List.mem_map.1 ((mem_firsts _ _).1 hc)
  -- the commitments of each slot
  let L : ℕ → List ι := fun s => (commitmentsOf qp).filter fun c =>
    (setsOf qp).idxOf (setOf qp c) = s
  have hLp : ∀ s, ((commitmentsOf qp).map (cdOf qp)).filter (fun cd => cd.setIndex = s)
      = (L s).map (cdOf qp) := by
    intro s
    rw [List.filter_map]; rfl
  have hLv : ∀ s, ((commitmentsOf qp).map (cdOf qv)).reverse.filter (fun cd => cd.setIndex = s)
      = ((L s).map (cdOf qv)).reverse := by
    intro s
    rw [List.filter_reverse, List.filter_map]
    have : (fun c => (setsOf qp).idxOf (setOf qp c) = s)
        = fun c => (setsOf qv).idxOf (setOf qv c) = s := by rw [hSs, hS]
    simp only [L, hSs, hS]
    rfl
  have hLc : ∀ s (hs : s < (setsOf qp).length), ∀ c ∈ L s, c ∈ commitmentsOf qp ∧
      setOf qp c = (setsOf qp)[s] := by
    intro s hs c hc
    obtain ⟨h1, h2⟩ := List.mem_filter.1 hc
    refine ⟨h1, ?_⟩
    have h3 : (setsOf qp).idxOf (setOf qp c) = s := by simpa using h2
    subst h3
    simp
  have hLne : ∀ s, s < (setsOf qp).length → L s ≠ [] := by
    intro s hs hnil
    obtain ⟨c, hc, h1⟩ := List.mem_map.1 ((mem_firsts _ _).1 (List.getElem_mem hs))
    have : c ∈ L s := List.mem_filter.2 ⟨hc, by
      rw [h1]; exact decide_eq_true ((nodup_firsts _).idxOf_getElem s hs)⟩
    rw [hnil] at this
    simp at this
  -- slot by slot
  have hslot : ∀ s < (setsOf qp).length, ∃ d : Slot F K,
      ((setsOf qp).map (ptsOf qp))[s]? = some d.pts ∧
      ((L s).map (cdOf qp)).foldlM (fun st cd => accPoly threads memP x₁ cd st) (none, 0)
        = some (some d.Q, d.b) ∧
      (((L s).map (cdOf qv)).reverse).foldlM (fun st cd => accCommitment cv pr memV x₁ cd st)
        (MSM.new, 1, List.replicate d.pts.length 0) = some (d.msm, d.pow, d.evs) ∧
      d.Ok cv pr ∧ ∀ x ∈ d.pts, ∃ q ∈ qp, q.point = x := by
    intro s hs
    obtain ⟨st, h1, -, h2⟩ := accPoly_fold threads ht pr hn memP x₁ ((L s).map (cdOf qp)) (by
      intro cd hcd
      obtain ⟨c, hc, rfl⟩ := List.mem_map.1 hcd
      obtain ⟨q, hq, rfl⟩ := hmemP c (hLc s hs c hc).1
      exact hlen q hq)
    obtain ⟨Q, h3, h4, h5, h6⟩ := h2 (by simpa using hLne s hs)
    obtain ⟨msm, evs, h7, h8, h9, h10⟩ := accCommitment_fold hv pr memV
      (fun c => commitOf pr (memP c)) x₁ (ptsOf qp (setsOf qp)[s]).length ((L s).map (cdOf qv)) (by
      intro cd hcd
      obtain ⟨c, hc, rfl⟩ := List.mem_map.1 hcd
      obtain ⟨hc1, hc2⟩ := hLc s hs c hc
      refine ⟨?_, ?_⟩
      · rw [(cd_group qv c (hC ▸ hc1)).2.1, ← hpts, ← hS, hc2]
      · obtain ⟨q, hq, rfl⟩ := hmemV c hc1
        exact hden q hq)
    obtain ⟨c₀, hc₀⟩ := List.exists_mem_of_ne_nil _ (hLne s hs)
    obtain ⟨hc1, hc2⟩ := hLc s hs c₀ hc₀
    obtain ⟨-, -, hnd, hmem⟩ := ptsOf_spec qp c₀ hc1
    rw [hc2] at hnd hmem
    refine ⟨⟨ptsOf qp (setsOf qp)[s], Q, st.2, msm, _, evs⟩, ?_, ?_, h7, ⟨hnd, h4, ?_, h9.symm, ?_⟩,
      ?_⟩
    · rw [List.getElem?_map, List.getElem?_eq_getElem hs]; rfl
    · rw [h1, ← h3]
    · dsimp only
      rw [h6, horner_map]
      rw [horner_map] at h8
      exact h8
    · intro i hi
      dsimp only at hi ⊢
      rw [h10, h5, horner_map, horner_map]
      apply horner_congr
      intro c hc
      obtain ⟨hc1, hc2⟩ := hLc s hs c hc
      obtain ⟨-, g2, g3⟩ := cd_group qv c (hC ▸ hc1)
      rw [← hS, hc2, ← hpts] at g2 g3
      have hi' : i < (cdOf qv c).evals.length := by rw [g2]; exact hi
      have hq := g3 i _ _ (List.getElem?_eq_getElem hi) (List.getElem?_eq_getElem hi')
      have := hev _ hq
      dsimp only at this
      rw [List.getD_eq_getElem?_getD, List.getElem?_eq_getElem hi', Option.getD_some]
      exact this
    · intro x hx
      obtain ⟨q, hq, -, rfl⟩ := (hmem x).1 hx
      exact ⟨q, hq, rfl⟩
  obtain ⟨data, hdl, hd⟩ := exists_list _ _ hslot
  have hmap : (setsOf qp).map (ptsOf qp) = data.map Slot.pts := by
    apply List.ext_getElem?
    intro s
    by_cases hs : s < data.length
    · rw [(hd s hs).1, List.getElem?_map, List.getElem?_eq_getElem hs]; rfl
    · rw [List.getElem?_eq_none (by simp; omega), List.getElem?_eq_none (by simp; omega)]
  have hidx : ∀ {ε : Type} (q : List (Query F ι ε)), setsOf q = setsOf qp → setOf q = setOf qp →
      ∀ c ∈ commitmentsOf qp, (cdOf q c).setIndex < data.length := by
    intro ε q h1 h2 c hc
    simp only [cdOf]
    rw [h1, h2, hdl]
    exact List.idxOf_lt_length_of_mem (mem_setsOf qp c hc)
  refine ⟨data, hmap, hmap, ?_, ?_, ?_⟩
  · obtain ⟨qs, hqs⟩ := accumulate_total CommitmentData.setIndex (accPoly threads memP x₁)
      ((commitmentsOf qp).map (cdOf qp)) (List.replicate (data.map Slot.pts).length (none, 0)) (by
        intro cd hcd
        obtain ⟨c, hc, rfl⟩ := List.mem_map.1 hcd
        simpa using hidx qp rfl rfl c hc) (by
        intro s x hx
        have hs : s < data.length := by
          have := (List.getElem?_eq_some_iff.1 hx).1; simpa using this
        obtain ⟨-, rfl⟩ := by
          have := (List.getElem?_eq_some_iff.1 hx).2; simpa [eq_comm] using And.intro hs this
        rw [hLp, (hd s hs).2.1]; rfl)
    rw [hqs]
    congr 1
    obtain ⟨h1, h2⟩ := accumulate_some _ _ _ _ _ hqs
    apply List.ext_getElem?
    intro s
    by_cases hs : s < data.length
    · obtain ⟨y, h3, h4⟩ := h2 s (none, 0) (by simp [hs])
      rw [hLp, (hd s hs).2.1] at h3
      cases h3
      rw [h4, List.getElem?_map, List.getElem?_eq_getElem hs]; rfl
    · rw [List.getElem?_eq_none (by rw [h1]; simp; omega), List.getElem?_eq_none (by simp; omega)]
  · obtain ⟨qs, hqs⟩ := accumulate_total CommitmentData.setIndex (accCommitment cv pr memV x₁)
      ((commitmentsOf qp).map (cdOf qv)).reverse
      ((data.map Slot.pts).map fun ps => (MSM.new, 1, List.replicate ps.length 0)) (by
        intro cd hcd
        obtain ⟨c, hc, rfl⟩ := List.mem_map.1 (List.mem_reverse.1 hcd)
        simpa using hidx qv hSs.symm hS.symm c hc) (by
        intro s x hx
        have hs : s < data.length := by
          have := (List.getElem?_eq_some_iff.1 hx).1; simpa using this
        rw [List.getElem?_map, List.getElem?_map, List.getElem?_eq_getElem hs] at hx
        cases hx
        rw [hLv, (hd s hs).2.2.1]; rfl)
    rw [hqs]
    congr 1
    obtain ⟨h1, h2⟩ := accumulate_some _ _ _ _ _ hqs
    apply List.ext_getElem?
    intro s
    by_cases hs : s < data.length
    · obtain ⟨y, h3, h4⟩ := h2 s _ (by
        rw [List.getElem?_map, List.getElem?_map, List.getElem?_eq_getElem hs]; rfl)
      rw [hLv, (hd s hs).2.2.1] at h3
      cases h3
      rw [h4, List.getElem?_map, List.getElem?_eq_getElem hs]; rfl
    · rw [List.getElem?_eq_none (by rw [h1]; simp; omega), List.getElem?_eq_none (by simp; omega)]
  · intro d hdm
    obtain ⟨s, hs, rfl⟩ := List.mem_iff_getElem.1 hdm
    exact (hd s hs).2.2.2

/-! ## Folding the sets -/

theorem qPrime_fold (threads : ℕ) (ht : threads ≠ 0) {cv : Coords K A} {pr : Params A}
    (hn : 0 < pr.n) (x₂ : F) (data : List (Slot F K)) (hok : ∀ d ∈ data, d.Ok cv pr)
    (acc : Option (List F)) (hacc : ∀ q, acc = some q → q.length = pr.n)
    (q' : Option (List F))
    (h : (data.map fun d => (d.pts, d.Q)).foldlM (qPrime threads pr.n x₂) acc = some q') :
    (∀ q, q' = some q → q.length = pr.n) ∧
    ∀ x, (∀ d ∈ data, x ∉ d.pts) →
      (data.map fun d => ((d.pts, d.evs), evalPolynomial d.Q x)).foldlM (fun acc pe =>
        (lagrangeInterpolate pe.1.1 pe.1.2).bind fun rPoly =>
        (divPoints x (pe.2 - evalPolynomial rPoly x) pe.1.1).map fun eval => acc * x₂ + eval)
        (acc.elim 0 fun q => evalPolynomial q x)
        = some (q'.elim 0 fun q => evalPolynomial q x) := by
  induction data generalizing acc with
  | nil => cases h; exact ⟨hacc, fun x _ => rfl⟩
  | cons d data ih =>
    have hd := hok d (by simp)
    rw [List.map_cons, List.foldlM_cons] at h
    obtain ⟨acc₁, h1, h2⟩ := Option.bind_eq_some_iff.1 h
    unfold qPrime at h1
    obtain ⟨quot, h3, h4⟩ := Option.bind_eq_some_iff.1 h1
    dsimp only at h3
    obtain ⟨hql, -⟩ := kate_fold _ _ _ h3
    have hql' : quot.length ≤ pr.n := by rw [← hd.len]; omega
    rw [List.take_of_length_le hql'] at h4
    generalize hpd : quot ++ List.replicate (pr.n - quot.length) 0 = poly at h4
    have hpl : poly.length = pr.n := by rw [← hpd]; simp; omega
    have hpe : ∀ x, evalPolynomial poly x = evalPolynomial quot x := by
      intro x
      rw [← hpd, evalPolynomial_eq, toPoly_append, toPoly_replicate_zero, evalPolynomial_eq]
      simp
    have key : ∃ q₁, acc₁ = some q₁ ∧ q₁.length = pr.n ∧ ∀ x, evalPolynomial q₁ x
        = (acc.elim 0 fun q => evalPolynomial q x) * x₂ + evalPolynomial quot x := by
      cases acc with
      | none =>
        simp only [Option.map_some, Option.some.injEq] at h4
        exact ⟨poly, h4.symm, hpl, fun x => by simp [hpe]⟩
      | some q =>
        have hq := hacc q rfl
        have hqn : q ≠ [] := by intro h; rw [h] at hq; simp at hq; omega
        simp only [polyMul_eq threads ht q hqn x₂, Option.bind_some] at h4
        rw [polyAdd_eq threads ht _ _ (by simpa using hqn) (by simp [hq, hpl])] at h4
        simp only [Option.map_some, Option.some.injEq] at h4
        refine ⟨_, h4.symm, by simp [hq, hpl], fun x => ?_⟩
        rw [evalPolynomial_eq, toPoly_zipWith_add (by simp [hq, hpl]), toPoly_map_mul, eval_add,
          eval_mul, ← evalPolynomial_eq, ← evalPolynomial_eq, hpe]
        simp [mul_comm]
    obtain ⟨q₁, rfl, h5, h6⟩ := key
    obtain ⟨h7, h8⟩ := ih (fun d hd => hok d (by simp [hd])) (some q₁)
      (fun q hq => by cases hq; exact h5) h2
    refine ⟨h7, fun x hx => ?_⟩
    obtain ⟨r, hr1, hr2, hr3, -⟩ := lagrangeInterpolate_spec d.pts d.evs hd.evs_len hd.nodup
    have hdiv := divPoints_eq d.pts hd.nodup d.Q quot r h3 hr2 (fun i hi => by
      rw [hr3 i hi, ← evalPolynomial_eq, ← hd.evs i hi, List.getD_eq_getElem?_getD,
        List.getElem?_eq_getElem (by rw [← hd.evs_len]; exact hi)]
      rfl) x (hx d (by simp))
    rw [List.map_cons, List.foldlM_cons]
    dsimp only
    rw [hr1, Option.bind_some, hdiv, Option.map_some, Option.bind_eq_bind, Option.bind_some,
      ← h6 x]
    exact h8 x fun d hd => hx d (by simp [hd])

theorem final_fold {cv : Coords K A} (hv : cv.Valid) (threads : ℕ) (ht : threads ≠ 0)
    {pr : Params A} (hn : 0 < pr.n) (x₃ x₄ : F) (data : List (Slot F K))
    (hok : ∀ d ∈ data, d.Ok cv pr) (p : List F) (b : F) (hp : p.length = pr.n) (msm : MSM F K)
    (hm : Holds cv pr msm (commitOf pr (p, b))) :
    ∃ p' b' msm', (data.map fun d => (d.Q, d.b)).foldlM (fun (st : List F × F) pb =>
        ((polyMul threads st.1 x₄).bind fun q => polyAdd threads q pb.1).map
          fun q => (q, st.2 * x₄ + pb.2)) (p, b) = some (p', b') ∧
      (data.map fun d => ((d.msm, d.pow, d.evs), evalPolynomial d.Q x₃)).foldlM
        (fun (st : MSM F K × F) qu => ((st.1.scale x₄).addMsm pr qu.1.1).map
          fun m => (m, st.2 * x₄ + qu.2)) (msm, evalPolynomial p x₃)
        = some (msm', evalPolynomial p' x₃) ∧
      Holds cv pr msm' (commitOf pr (p', b')) := by
  induction data generalizing p b msm with
  | nil => exact ⟨p, b, msm, rfl, rfl, hm⟩
  | cons d data ih =>
    have hd := hok d (by simp)
    have hpn : p ≠ [] := by intro h; rw [h] at hp; simp at hp; omega
    have hlen := hd.len
    obtain ⟨m₁, h1, h2⟩ := holds_add hv (holds_scale hm x₄) hd.holds
    have hadd := polyAdd_eq threads ht (p.map (· * x₄)) d.Q (by simpa using hpn)
      (by simp [hp, hlen])
    obtain ⟨p', b', msm', h3, h4, h5⟩ := ih (fun d hd => hok d (by simp [hd]))
      (List.zipWith (· + ·) (p.map (· * x₄)) d.Q) (b * x₄ + d.b) (by simp [hp, hlen]) m₁ (by
        have : commitOf pr (List.zipWith (· + ·) (p.map (· * x₄)) d.Q, b * x₄ + d.b)
            = x₄ • commitOf pr (p, b) + commitOf pr (d.Q, d.b) := by
          simp only [commitOf]
          rw [dot_zipWith_add _ _ _ (by simp [hp, hlen]), dot_map_mul]
          module
        rw [this]; exact h2)
    refine ⟨p', b', msm', ?_, ?_, h5⟩
    · rw [List.map_cons, List.foldlM_cons]
      dsimp only
      rw [polyMul_eq threads ht p hpn x₄, Option.bind_some, hadd]
      exact h3
    · rw [List.map_cons, List.foldlM_cons]
      dsimp only
      rw [h1, Option.map_some, Option.bind_eq_bind, Option.bind_some]
      have : evalPolynomial p x₃ * x₄ + evalPolynomial d.Q x₃
          = evalPolynomial (List.zipWith (· + ·) (p.map (· * x₄)) d.Q) x₃ := by
        rw [evalPolynomial_eq _ _, evalPolynomial_eq d.Q, evalPolynomial_eq (List.zipWith _ _ _),
          toPoly_zipWith_add (by simp [hp, hlen]), toPoly_map_mul, eval_add, eval_mul]
        simp [mul_comm]
      rw [this]
      exact h4

/-! ## Honest openings -/

omit [DecidableEq F] [Field F] in
theorem _root_.Verif.Transcript.Sim.mapM' {α β δ : Type} (hG : Closed Good) (l : List δ)
    (f : δ → W F α) (g : δ → R F β) (h : δ → β) (hgrow : ∀ i, Grows (f i))
    (hf : ∀ i ∈ l, ∀ tr', tr <:+ tr' → Sim Good tr' (f i) (g i) fun _ b _ => b = h i) :
    Sim Good tr (l.mapM f) (l.mapM g) fun _ bs _ => bs = l.map h := by
  induction l generalizing tr with
  | nil => exact Sim.pure _ _ fun _ => rfl
  | cons a l ih =>
    rw [List.mapM_cons, List.mapM_cons]
    refine (hf a (by simp) tr (List.suffix_refl _)).bind hG (fun _ tr' abs out c st' hw =>
      ((Grows.mapM l f hgrow).bind fun _ => Grows.pure _) tr' abs out c st' hw) ?_
    rintro _ b t1 ht1 rfl
    refine (ih fun i hi tr' htr' => hf i (by simp [hi]) tr' (ht1.trans htr')).bind hG
      (fun _ tr' abs out c st' hw => (Grows.pure _) tr' abs out c st' hw) ?_
    rintro _ bs t2 _ rfl
    exact Sim.pure _ _ fun _ => rfl

theorem createProof_grows (threads : ℕ) (e : Enc F K A) (pr : Params A) (mem : ι → List F × F)
    (qBlind : F) (rand : Random F) (queries : List (Query F ι Unit)) :
    Grows (createProof threads e pr mem qBlind rand queries) := by
  unfold createProof
  refine (Grows.squeeze _).bind fun _ => (Grows.squeeze _).bind fun _ => ?_
  refine Grows.bind ?_ fun _ => (Grows.panics _).bind fun _ => (Grows.panics _).bind fun _ =>
    (Grows.panics _).bind fun _ => (Grows.panics _).bind fun _ => (Grows.panics _).bind fun _ =>
    (Grows.writePoint _ _).bind fun _ => (Grows.squeeze _).bind fun _ =>
    (Grows.mapM _ _ fun _ => Grows.writeScalar _ _).bind fun _ => (Grows.squeeze _).bind fun _ =>
    (Grows.panics _).bind fun _ => Ipa.createProof_grows _ _ _ _ _ _ _
  cases constructIntermediateSets queries with
  | ok r => exact Grows.pure _
  | error err => cases err <;> exact fun _ _ _ _ _ h => by cases h

theorem createProof_sim (hG : Closed Good) (threads : ℕ) (ht : threads ≠ 0) {e : Enc F K A}
    (he : e.Valid) (pr : Params A) (hpr : ParamsOk pr) (memP : ι → List F × F)
    (memV : ι → Commitment F K A) (qBlind : F) (rand : Random F)
    (qp : List (Query F ι Unit)) (qv : List (Query F ι F))
    (hkeys : qp.map (fun q => (q.commitment, q.point)) = qv.map fun q => (q.commitment, q.point))
    (hlen : ∀ q ∈ qp, (memP q.commitment).1.length = pr.n)
    (hden : ∀ q ∈ qv, Denotes e.toCoords pr (memV q.commitment) (commitOf pr (memP q.commitment)))
    (hev : ∀ q ∈ qv, q.eval = evalPolynomial (memP q.commitment).1 q.point)
    (hx₃ : ∀ x₁ x₂ x₃, Good (x₃ :: x₂ :: x₁ :: tr) → ∀ q ∈ qp, q.point ≠ x₃)
    (msm : MSM F K) (hmsm : Holds e.toCoords pr msm 0) :
    Sim Good tr (createProof threads e pr memP qBlind rand qp) (verifyProof e pr memV qv msm)
      fun _ gd _ => GuardOk e pr gd := by
  have hn : 0 < pr.n := hpr.ok.pos
  unfold createProof verifyProof
  refine (Sim.squeeze he).bind hG (fun _ tr' abs out c st' h => by
    revert h
    refine ((Grows.squeeze _).bind fun _ => ?_ : Grows _) tr' abs out c st'
    refine Grows.bind ?_ fun _ => (Grows.panics _).bind fun _ => (Grows.panics _).bind fun _ =>
      (Grows.panics _).bind fun _ => (Grows.panics _).bind fun _ => (Grows.panics _).bind fun _ =>
      (Grows.writePoint _ _).bind fun _ => (Grows.squeeze _).bind fun _ =>
      (Grows.mapM _ _ fun _ => Grows.writeScalar _ _).bind fun _ => (Grows.squeeze _).bind fun _ =>
      (Grows.panics _).bind fun _ => Ipa.createProof_grows _ _ _ _ _ _ _
    cases constructIntermediateSets qp with
    | ok r => exact Grows.pure _
    | error err => cases err <;> exact fun _ _ _ _ _ h => by cases h) ?_
  rintro _ x₁ t1 hs1 ⟨rfl, rfl, -⟩
  refine (Sim.squeeze he).bind hG (fun _ tr' abs out c st' h => by
    revert h
    refine (Grows.bind ?_ fun _ => (Grows.panics _).bind fun _ => (Grows.panics _).bind fun _ =>
      (Grows.panics _).bind fun _ => (Grows.panics _).bind fun _ => (Grows.panics _).bind fun _ =>
      (Grows.writePoint _ _).bind fun _ => (Grows.squeeze _).bind fun _ =>
      (Grows.mapM _ _ fun _ => Grows.writeScalar _ _).bind fun _ => (Grows.squeeze _).bind fun _ =>
      (Grows.panics _).bind fun _ => Ipa.createProof_grows _ _ _ _ _ _ _) tr' abs out c st'
    cases constructIntermediateSets qp with
    | ok r => exact Grows.pure _
    | error err => cases err <;> exact fun _ _ _ _ _ h => by cases h) ?_
  rintro _ x₂ t2 hs2 ⟨rfl, rfl, -⟩
  by_cases hnd : (qp.map fun q => (q.commitment, q.point)).Nodup
  swap
  · rw [construct_eq, if_neg hnd]
    exact ⟨fun _ _ _ _ h => (by cases h), fun _ _ _ _ h => (by cases h)⟩
  rw [construct_eq, if_pos hnd, construct_eq, if_pos (hkeys ▸ hnd)]
  obtain ⟨data, hd1, hd2, hd3, hd4, hd5⟩ := slots he.coords_valid threads ht pr hn memP memV x₁
    qp qv hkeys hlen hden hev
  rw [hd1, hd2]
  refine (Sim.pure _ _ (Q := fun a b t => a = ((commitmentsOf qp).map (cdOf qp), data.map Slot.pts) ∧
    b = ((commitmentsOf qv).map (cdOf qv), data.map Slot.pts) ∧ t = x₂ :: x₁ :: tr)
    fun _ => ⟨rfl, rfl, rfl⟩).bind hG
    (fun _ tr' abs out c st' h => by
    revert h
    exact ((Grows.panics _).bind fun _ => (Grows.panics _).bind fun _ =>
      (Grows.panics _).bind fun _ => (Grows.panics _).bind fun _ => (Grows.panics _).bind fun _ =>
      (Grows.writePoint _ _).bind fun _ => (Grows.squeeze _).bind fun _ =>
      (Grows.mapM _ _ fun _ => Grows.writeScalar _ _).bind fun _ => (Grows.squeeze _).bind fun _ =>
      (Grows.panics _).bind fun _ => Ipa.createProof_grows _ _ _ _ _ _ _) tr' abs out c st') ?_
  rintro _ _ t3 hs3 ⟨rfl, rfl, rfl⟩
  dsimp only
  rw [hd3, hd4]
  refine Sim.panicsW fun _ h => ?_
  cases h
  refine Sim.panicsR rfl ?_
  have hqp : (data.map fun d => (some d.Q, d.b)).mapM (fun q : Option (List F) × F => q.1)
      = some (data.map Slot.Q) := by
    clear hd1 hd2 hd3 hd4 hd5
    induction data with
    | nil => rfl
    | cons d data ih => rw [List.map_cons, List.mapM_cons, ih]; rfl
  rw [hqp]
  refine Sim.panicsW fun _ h => ?_
  cases h
  rw [List.zip_map']
  refine Sim.panicsW fun q' hq' => Sim.panicsW fun q'' hq'' => Sim.panicsW fun qC hqC => ?_
  subst hq''
  obtain ⟨hq1, hq2⟩ := qPrime_fold threads ht hn x₂ data (fun d hd => (hd5 d hd).1) none
    (fun _ h => by cases h) (some q'') hq'
  have hql := hq1 _ rfl
  refine (Sim.writePoint he _).mapErr.bind hG (fun _ tr' abs out c st' h => by
    revert h
    exact ((Grows.squeeze _).bind fun _ =>
      (Grows.mapM _ _ fun _ => Grows.writeScalar _ _).bind fun _ => (Grows.squeeze _).bind fun _ =>
      (Grows.panics _).bind fun _ => Ipa.createProof_grows _ _ _ _ _ _ _) tr' abs out c st') ?_
  rintro _ qC t4 hs4 ⟨rfl, -, rfl⟩
  refine (Sim.squeeze he).bind hG (fun _ tr' abs out c st' h => by
    revert h
    exact ((Grows.mapM _ _ fun _ => Grows.writeScalar _ _).bind fun _ =>
      (Grows.squeeze _).bind fun _ =>
      (Grows.panics _).bind fun _ => Ipa.createProof_grows _ _ _ _ _ _ _) tr' abs out c st') ?_
  rintro _ x₃ t5 hs5 ⟨rfl, -, hgood⟩
  rw [List.mapM_map, List.mapM_map]
  refine (Sim.mapM' hG data _ _ (fun d => evalPolynomial d.Q x₃)
    (fun _ => Grows.writeScalar _ _) (fun d _ t _ => ?_)).bind hG (fun _ tr' abs out c st' h => by
    revert h
    exact ((Grows.squeeze _).bind fun _ =>
      (Grows.panics _).bind fun _ => Ipa.createProof_grows _ _ _ _ _ _ _) tr' abs out c st') ?_
  · exact (Sim.writeScalar he _).mapErr.mono fun _ _ _ _ _ h => h.1
  rintro _ _ t6 hs6 rfl
  have hpts : ∀ d ∈ data, x₃ ∉ d.pts := by
    intro d hd hx
    obtain ⟨q, hq, hqx⟩ := (hd5 d hd).2 _ hx
    exact hx₃ x₁ x₂ x₃ hgood q hq hqx
  have hv1 := hq2 x₃ hpts
  simp only [List.map_map, List.zip_map', Function.comp_def]
  refine Sim.panicsR hv1 ?_
  refine (Sim.squeeze he).bind hG (fun _ tr' abs out c st' h => by
    revert h
    exact (
      (Grows.panics _).bind fun _ => Ipa.createProof_grows _ _ _ _ _ _ _) tr' abs out c st') ?_
  rintro _ x₄ t7 hs7 ⟨rfl, -, -⟩
  obtain ⟨msm₁, hm1, hm2⟩ := holds_append he.coords_valid hmsm 1 qC
  refine Sim.panicsR hm1 ?_
  have hC : Holds e.toCoords pr msm₁ (commitOf pr (q'', qBlind)) := by
    unfold Params.commit at hqC
    rw [Commitment.multiexp_append, if_pos (by rw [hql, hpr.g_len])] at hqC
    rw [zero_add, one_smul, ← Option.some.inj hqC] at hm2
    exact hm2
  obtain ⟨p', b', msm', hf1, hf2, hf3⟩ := final_fold he.coords_valid threads ht hn x₃ x₄ data
    (fun d hd => (hd5 d hd).1) q'' qBlind hql msm₁ hC
  refine Sim.panicsW fun pb hpb => Sim.panicsR hf2 ?_
  have hpb' : pb = (p', b') := Option.some.inj (hpb.symm.trans hf1)
  subst hpb'
  exact Ipa.createProof_sim hG threads ht he pr hpr rand p' b' x₃ _ msm' hf3 rfl

/-- **C25**: an honest multipoint opening verifies.  Prover and verifier hold query lists with the
same commitments and points in the same order; the verifier's commitments denote the commitments
to the prover's polynomials, and the claimed values are their values.  Then, whatever the
randomness, if `create_proof` succeeds and the challenge `x₃` (the third one squeezed) is not one
of the points, the verifier accepts the bytes written. -/
theorem multiopen_verifies [DecidableEq A] (threads : ℕ) (ht : threads ≠ 0) {e : Enc F K A}
    (he : e.Valid) (pr : Params A) (hpr : ParamsOk pr) (hk : pr.k ≠ 0) (memP : ι → List F × F)
    (memV : ι → Commitment F K A) (qBlind : F) (rand : Random F)
    (qp : List (Query F ι Unit)) (qv : List (Query F ι F))
    (hkeys : qp.map (fun q => (q.commitment, q.point)) = qv.map fun q => (q.commitment, q.point))
    (hlen : ∀ q ∈ qp, (memP q.commitment).1.length = pr.n)
    (hden : ∀ q ∈ qv, ∃ P, pr.commit (memP q.commitment).1 (memP q.commitment).2 = some P ∧
      Denotes e.toCoords pr (memV q.commitment) P)
    (hev : ∀ q ∈ qv, q.eval = (toPoly (memP q.commitment).1).eval q.point)
    (msm : MSM F K) (hmsm : Holds e.toCoords pr msm 0) (st st' : WState F)
    (h : createProof threads e pr memP qBlind rand qp st = .ok ((), st'))
    (hx₃ : ∀ x₁ x₂ x₃, x₃ :: x₂ :: x₁ :: st.trace <:+ st'.trace → ∀ q ∈ qp, q.point ≠ x₃) :
    ∃ proof, st'.out = st.out ++ proof ∧ ∀ rest, ∃ gd m,
      verifyProof e pr memV qv msm ⟨st.absorbed, proof ++ rest, st.trace⟩
        = .ok (gd, ⟨st'.absorbed, rest, st'.trace⟩) ∧
      gd.useChallenges pr = some m ∧ m.eval e.toCoords pr = some true := by
  have hs := createProof_sim (Good := fun t => t <:+ st'.trace) (tr := st.trace)
    (fun t t' h1 h2 => h1.trans h2) threads ht he pr hpr memP memV qBlind rand qp qv hkeys hlen
    (fun q hq => by
      obtain ⟨P, h1, h2⟩ := hden q hq
      unfold Params.commit at h1
      rw [Commitment.multiexp_append] at h1
      split_ifs at h1
      cases h1
      exact h2) (fun q hq => by rw [hev q hq, evalPolynomial_eq])
    hx₃ msm hmsm
  obtain ⟨proof, gd, h1, h2, h3, v, h4, h5⟩ := hs.run _ _ _ _ h (List.suffix_refl _)
  refine ⟨proof, h1, fun rest => ?_⟩
  rcases useChallenges_spec hpr gd h3 h4 with ⟨h, -⟩ | ⟨m, h6, h7⟩
  · exact absurd h hk
  · refine ⟨gd, m, h2 rest, h6, ?_⟩
    rw [h5] at h7
    rw [eval_spec he.coords_valid hpr.ok h7]; simp

/-! ## A concrete opening -/

section Example

open Verif.Toy

def exParams : Params G := ⟨2, 4, [1, 2, 3, 4], [1, 2, 3, 4], 5, 6⟩

def exMem : Fin 2 → List G × G := fun i => if i = 0 then ([1, 2, 3, 4], 5) else ([4, 3, 2, 1], 7)

/-- Polynomial 0 at 10 and 11, polynomial 1 at 10: two sets of points. -/
def exQueries : List (Query G (Fin 2) Unit) := [⟨10, 0, ()⟩, ⟨10, 1, ()⟩, ⟨11, 0, ()⟩]

def exQueriesV : List (Query G (Fin 2) G) :=
  exQueries.map fun q => ⟨q.point, q.commitment, evalPolynomial (exMem q.commitment).1 q.point⟩

/-- The hypotheses of `multiopen_verifies` hold here: the prover succeeds and `x₃` is neither 10
nor 11. -/
example : ∃ st', createProof 2 (enc sumHash uniform) exParams exMem 3
      ⟨fun i => i, 1, fun _ => (3, 1)⟩ exQueries W.init = .ok ((), st') ∧
    (∀ x₁ x₂ x₃, x₃ :: x₂ :: x₁ :: W.init.trace <:+ st'.trace → ∀ q ∈ exQueries, q.point ≠ x₃) ∧
    ParamsOk exParams ∧
    exQueries.map (fun q => (q.commitment, q.point))
      = exQueriesV.map (fun q => (q.commitment, q.point)) ∧
    (∀ q ∈ exQueries, (exMem q.commitment).1.length = exParams.n) ∧
    ∀ q ∈ exQueriesV, q.eval = (toPoly (exMem q.commitment).1).eval q.point := by
  have h : (createProof 2 (enc sumHash uniform) exParams exMem 3
      ⟨fun i => i, 1, fun _ => (3, 1)⟩ exQueries W.init).toOption.map (fun r => r.2.trace)
      = some [6, 56, 57, 82, 6, 76, 10, 5] := by decide +kernel
  rcases hc : createProof 2 (enc sumHash uniform) exParams exMem 3
      ⟨fun i => i, 1, fun _ => (3, 1)⟩ exQueries W.init with err | ⟨u, st'⟩
  · rw [hc] at h; cases h
  · rw [hc] at h
    refine ⟨st', rfl, ?_, ⟨rfl, rfl⟩, by decide, by decide, ?_⟩
    · have ht : st'.trace = [6, 56, 57, 82, 6, 76, 10, 5] := Option.some.inj h
      intro x₁ x₂ x₃ hs
      rw [ht] at hs
      obtain ⟨t, ht⟩ := hs
      have h1 := congrArg List.reverse ht
      simp only [List.reverse_append, List.reverse_cons, W.init] at h1
      simp only [List.reverse_nil, List.nil_append, List.cons_append, List.cons.injEq] at h1
      obtain ⟨-, -, h2, -⟩ := h1
      subst h2
      decide +kernel
    · intro q hq
      obtain ⟨q', -, rfl⟩ := List.mem_map.1 hq
      exact evalPolynomial_eq _ _

end Example

end Verif.Multiopen
