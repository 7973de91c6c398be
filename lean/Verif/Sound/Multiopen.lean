import Verif.Sound.Ipa
import Verif.Sound.Quot

/-!
# C52: multipoint opening is sound

`halo2_proofs/src/poly/multiopen/verifier.rs`.  If one of the queries claims a value that the
represented polynomial does not take, an accepting run meets a challenge in a small set fixed
before it was drawn, or its final check is a non-trivial relation between the generators.
-/

namespace Verif.Sound

open Verif.Msm Verif.PolyArith Verif.Transcript Verif.Ipa Verif.Multiopen Polynomial

variable {F K A ι : Type} [Field F] [DecidableEq F] [Field K] [LinearOrder K] [AddCommGroup A]
  [Module F A] [DecidableEq ι]

/-- The combination a commitment or an accumulator stands for. -/
def Represents (cv : Coords K A) (pr : Params A) (rep : A → Comb F) (m : Commitment F K A)
    (v : Comb F) : Prop :=
  match m with
  | .commitment c => rep c = v
  | .msm m => Reps cv pr rep m v

variable {e : Enc F K A} {pr : Params A} {rep : A → Comb F} {N : ℕ → ℕ} {S : Set (A → Comb F)}

/-! ## The accumulators of the sets -/

omit [DecidableEq ι] in
theorem acc_fold (hv : e.toCoords.Valid) (mem : ι → Commitment F K A) (P : ι → Comb F) (x₁ : F)
    (m : ℕ) (l : List (CommitmentData ι F)) (hl : ∀ cd ∈ l, cd.evals.length = m) (msm : MSM F K)
    (pow : F) (evs : List F)
    (h : l.reverse.foldlM (fun st cd => accCommitment e.toCoords pr mem x₁ cd st)
        (MSM.new, 1, List.replicate m 0) = some (msm, pow, evs)) :
    pow = x₁ ^ l.length ∧ evs.length = m ∧
      (∀ i : ℕ, evs.getD i 0 = horner x₁ (fun cd => cd.evals.getD i 0) l) ∧
      ∀ rep : A → Comb F, Algebraic pr rep →
        (∀ cd ∈ l, Represents e.toCoords pr rep (mem cd.commitment) (P cd.commitment)) →
        Reps e.toCoords pr rep msm (horner x₁ (fun cd => P cd.commitment) l) := by
  induction l generalizing msm pow evs with
  | nil =>
    simp only [List.reverse_nil, List.foldlM_nil, Option.pure_def, Option.some.injEq,
      Prod.mk.injEq] at h
    obtain ⟨rfl, rfl, rfl⟩ := h
    refine ⟨by simp, by simp, fun i => ?_, fun rep _ _ => by simpa [horner] using reps_new⟩
    simp only [horner, List.foldl_nil]
    rw [List.getD_eq_getElem?_getD, List.getElem?_replicate]
    split_ifs <;> rfl
  | cons a l ih =>
    rw [List.reverse_cons, List.foldlM_append, Option.bind_eq_bind] at h
    obtain ⟨⟨msm₁, pow₁, evs₁⟩, h1, h2⟩ := Option.bind_eq_some_iff.1 h
    obtain ⟨rfl, g1, g2, g3⟩ := ih (fun cd hcd => hl cd (by simp [hcd])) _ _ _ h1
    simp only [List.foldlM_cons, List.foldlM_nil, Option.bind_eq_bind, Option.pure_def,
      Option.bind_some] at h2
    obtain ⟨st, h2, hst⟩ := Option.bind_eq_some_iff.1 h2
    obtain rfl := Option.some.inj hst
    unfold accCommitment at h2
    obtain ⟨m', h3, h4⟩ := Option.map_eq_some_iff.1 h2
    simp only [Prod.mk.injEq] at h4
    obtain ⟨rfl, rfl, rfl⟩ := h4
    obtain ⟨h7, h8⟩ := zipUpdate_getD (x₁ ^ l.length) evs₁ a.evals
      (by rw [g1, hl a (by simp)])
    refine ⟨by simp [pow_succ], h7.trans g1, fun i => ?_, fun rep hr hrep => ?_⟩
    · rw [h8, g2, horner_cons, smul_eq_mul]; ring
    · have ih' := g3 rep hr fun cd hcd => hrep cd (by simp [hcd])
      have ha := hrep a (by simp)
      rw [horner_cons, add_comm]
      revert ha h3
      unfold Represents
      cases mem a.commitment with
      | commitment c =>
        intro h3 ha
        obtain ⟨m'', g4, g5⟩ := reps_append hv hr ih' (x₁ ^ l.length) c
        dsimp only at h3 ha
        obtain rfl : m' = m'' := Option.some.inj (h3.symm.trans g4)
        rw [ha] at g5
        exact g5
      | msm m =>
        intro h3 ha
        obtain ⟨m'', g4, g5⟩ := reps_add hv hr ih' (reps_scale ha (x₁ ^ l.length))
        dsimp only at h3
        obtain rfl : m' = m'' := Option.some.inj (h3.symm.trans g4)
        exact g5

/-- The verifier's data of one set of points, with the combination its accumulator stands for. -/
structure VSlot (F K : Type) [Field F] where
  pts : List F
  Q : Comb F
  msm : MSM F K
  pow : F
  evs : List F

/-- The polynomial of the claimed values. -/
noncomputable def VSlot.r (d : VSlot F K) : F[X] := toPoly ((lagrangeInterpolate d.pts d.evs).getD [])

noncomputable def VSlot.quot (d : VSlot F K) : Quot F := ⟨d.pts.toFinset, d.Q.1, d.r⟩

structure VSlot.Ok (d : VSlot F K) (e : Enc F K A) (pr : Params A) (S : Set (A → Comb F))
    (qs : List (Query F ι F)) : Prop where
  nodup : d.pts.Nodup
  ne : d.pts ≠ []
  len : d.evs.length = d.pts.length
  reps : ∀ rep ∈ S, Reps e.toCoords pr rep d.msm d.Q
  degree : d.Q.1.degree < pr.n
  sub : ∀ x ∈ d.pts, ∃ q ∈ qs, q.point = x

theorem horner_degree_lt {α : Type} (x : F) (v : α → Comb F) (l : List α) (n : ℕ)
    (h : ∀ a ∈ l, (v a).1.degree < n) : (horner x v l).1.degree < n := by
  induction l using List.reverseRecOn with
  | nil => simp [horner]
  | append_singleton l a ih =>
    rw [horner_snoc, Prod.fst_add, Prod.smul_fst]
    refine lt_of_le_of_lt (degree_add_le _ _) (max_lt ?_ (h a (by simp)))
    exact lt_of_le_of_lt (degree_smul_le _ _) (ih fun a ha => h a (by simp [ha]))

/-- The hypotheses on the queries: their commitments are represented. -/
structure QueriesOk (e : Enc F K A) (pr : Params A) (S : Set (A → Comb F))
    (mem : ι → Commitment F K A) (P : ι → Comb F) (qs : List (Query F ι F)) : Prop where
  reps : ∀ rep ∈ S, ∀ q ∈ qs, Represents e.toCoords pr rep (mem q.commitment) (P q.commitment)
  degree : ∀ q ∈ qs, (P q.commitment).1.degree < pr.n

theorem vslots (he : e.Valid) (hA : ∀ rep ∈ S, Algebraic pr rep) {mem : ι → Commitment F K A}
    {P : ι → Comb F} {qs : List (Query F ι F)} (hqs : QueriesOk e pr S mem P qs)
    {cds : List (CommitmentData ι F)} {ps : List (List F)} (hg : Grouping qs cds ps) (x₁ : F)
    {out : List (MSM F K × F × List F)}
    (hout : accumulate CommitmentData.setIndex (accCommitment e.toCoords pr mem x₁)
      (ps.map fun ps => (MSM.new, 1, List.replicate ps.length 0)) cds.reverse = some out) :
    ∃ data : List (VSlot F K), ps = data.map VSlot.pts ∧
      out = data.map (fun d => (d.msm, d.pow, d.evs)) ∧ (∀ d ∈ data, d.Ok e pr S qs) ∧
      ∀ (s : ℕ) d, data[s]? = some d →
        d.Q = horner x₁ (fun cd => P cd.commitment) (cds.filter fun cd => cd.setIndex = s) ∧
        ∀ i : ℕ, d.evs.getD i 0
          = horner x₁ (fun cd => cd.evals.getD i 0) (cds.filter fun cd => cd.setIndex = s) := by
  obtain ⟨h1, h2⟩ := accumulate_some _ _ _ _ _ hout
  have hmemq : ∀ cd ∈ cds, ∃ q ∈ qs, q.commitment = cd.commitment := fun cd hcd =>
    (hg.mem _).1 (List.mem_map_of_mem hcd)
  have hslot : ∀ s < ps.length, ∃ d : VSlot F K, ps[s]? = some d.pts ∧
      out[s]? = some (d.msm, d.pow, d.evs) ∧ d.Ok e pr S qs ∧
        d.Q = horner x₁ (fun cd => P cd.commitment) (cds.filter fun cd => cd.setIndex = s) ∧
        ∀ i : ℕ, d.evs.getD i 0
          = horner x₁ (fun cd => cd.evals.getD i 0) (cds.filter fun cd => cd.setIndex = s) := by
    intro s hs
    obtain ⟨⟨msm, pow, evs⟩, h3, h4⟩ := h2 s (MSM.new, 1, List.replicate ps[s].length 0) (by
      rw [List.getElem?_map, List.getElem?_eq_getElem hs]; rfl)
    rw [List.filter_reverse] at h3
    have hcd : ∀ cd ∈ cds.filter (fun cd => decide (cd.setIndex = s)), cd ∈ cds ∧ cd.setIndex = s :=
      fun cd h => ⟨(List.mem_filter.1 h).1, by simpa using (List.mem_filter.1 h).2⟩
    obtain ⟨-, g1, g2, g3⟩ := acc_fold he.coords_valid mem P x₁ ps[s].length _ (by
      intro cd h
      obtain ⟨hm, rfl⟩ := hcd cd h
      obtain ⟨pts, k1, -, -, k2, -⟩ := hg.group cd hm
      rw [List.getElem?_eq_getElem hs] at k1
      cases k1
      exact k2) msm pow evs h3
    obtain ⟨cd, hm, rfl⟩ := hg.used s hs
    obtain ⟨pts, k1, k2, k3, -, -⟩ := hg.group cd hm
    rw [List.getElem?_eq_getElem hs] at k1
    cases k1
    refine ⟨⟨ps[cd.setIndex], _, msm, pow, evs⟩, List.getElem?_eq_getElem hs, h4,
      ⟨k2, ?_, g1, ?_, ?_, ?_⟩, rfl, g2⟩
    · obtain ⟨q, hq, hqc⟩ := hmemq cd hm
      exact List.ne_nil_of_mem ((k3 q.point).2 ⟨q, hq, hqc, rfl⟩)
    · intro rep hr
      refine g3 rep (hA rep hr) fun cd' h => ?_
      obtain ⟨q, hq, hqc⟩ := hmemq cd' (hcd cd' h).1
      rw [← hqc]
      exact hqs.reps rep hr q hq
    · apply horner_degree_lt
      intro cd' h
      obtain ⟨q, hq, hqc⟩ := hmemq cd' (hcd cd' h).1
      rw [← hqc]
      exact hqs.degree q hq
    · intro x hx
      obtain ⟨q, hq, -, rfl⟩ := (k3 x).1 hx
      exact ⟨q, hq, rfl⟩
  obtain ⟨data, hdl, hd⟩ := exists_list _ _ hslot
  refine ⟨data, ?_, ?_, ?_, ?_⟩
  · apply List.ext_getElem?
    intro s
    by_cases hs : s < data.length
    · rw [(hd s hs).1, List.getElem?_map, List.getElem?_eq_getElem hs]; rfl
    · rw [List.getElem?_eq_none (by omega), List.getElem?_eq_none (by simp; omega)]
  · apply List.ext_getElem?
    intro s
    by_cases hs : s < data.length
    · rw [(hd s hs).2.1, List.getElem?_map, List.getElem?_eq_getElem hs]; rfl
    · rw [List.getElem?_eq_none (by rw [h1]; simp; omega), List.getElem?_eq_none (by simp; omega)]
  · intro d hdm
    obtain ⟨s, hs, rfl⟩ := List.mem_iff_getElem.1 hdm
    exact (hd s hs).2.2.1
  · intro s d hsd
    obtain ⟨hs, rfl⟩ := List.getElem?_eq_some_iff.1 hsd
    exact (hd s hs).2.2.2

/-- The wrong query survives the combination with `x₁`. -/
theorem slot_bad {P : ι → Comb F} {qs : List (Query F ι F)} {cds : List (CommitmentData ι F)}
    {ps : List (List F)} (hn : (qs.map fun q => (q.commitment, q.point)).Nodup)
    (hg : Grouping qs cds ps) {q : Query F ι F} (hq : q ∈ qs)
    (hne : (P q.commitment).1.eval q.point ≠ q.eval) :
    ∃ (s i : ℕ) (pts : List F), ps[s]? = some pts ∧ pts[i]? = some q.point ∧
      ∃ B : Finset F, B.card ≤ qs.length - 1 ∧ ∀ x₁ ∉ B,
        (horner x₁ (fun cd => P cd.commitment) (cds.filter fun cd => cd.setIndex = s)).1.eval q.point
          ≠ horner x₁ (fun cd => cd.evals.getD i 0) (cds.filter fun cd => cd.setIndex = s) := by
  obtain ⟨cd, hcd, hc⟩ := List.mem_map.1 ((hg.mem q.commitment).2 ⟨q, hq, rfl⟩)
  obtain ⟨pts, h1, h2, h3, h4, h5⟩ := hg.group cd hcd
  obtain ⟨i, hi⟩ := List.mem_iff_getElem?.1 ((h3 q.point).2 ⟨q, hq, hc.symm, rfl⟩)
  have hi' : i < cd.evals.length := by rw [h4]; exact (List.getElem?_eq_some_iff.1 hi).1
  have hev : cd.evals[i] = q.eval := by
    have hm := h5 i q.point cd.evals[i] hi (List.getElem?_eq_getElem hi')
    have := List.inj_on_of_nodup_map hn hm hq (by rw [hc])
    rw [← this]
  obtain ⟨B, hB, hx⟩ := horner_bad
    (fun cd : CommitmentData ι F => (P cd.commitment).1.eval q.point - cd.evals.getD i 0)
    (cds.filter fun cd' => cd'.setIndex = cd.setIndex) ⟨cd, by simp [hcd], by
      rw [List.getD_eq_getElem?_getD, List.getElem?_eq_getElem hi', Option.getD_some, hev, hc]
      exact sub_ne_zero.2 hne⟩
  refine ⟨cd.setIndex, i, pts, h1, hi, B, hB.trans ?_, fun x₁ hx₁ h => hx x₁ hx₁ ?_⟩
  · have hl : cds.length ≤ qs.length := by
      have hsub : cds.map CommitmentData.commitment ⊆ qs.map Query.commitment := by
        intro c hc
        obtain ⟨q, hq, rfl⟩ := (hg.mem c).1 hc
        exact List.mem_map_of_mem hq
      have := (List.subperm_of_subset hg.nodup hsub).length_le
      simpa using this
    have := List.length_filter_le (fun cd' => decide (cd'.setIndex = cd.setIndex)) cds
    omega
  · rw [horner_sub, sub_eq_zero, ← h]
    exact (horner_linear (fun v : Comb F => v.1.eval q.point) (fun a b => by simp)
      (fun c a => by simp) (by simp) x₁ _ _).symm

theorem slots_le {qs : List (Query F ι F)} {cds : List (CommitmentData ι F)}
    {ps : List (List F)} (hg : Grouping qs cds ps) : ps.length ≤ qs.length := by
  have hl : cds.length ≤ qs.length := by
    have hsub : cds.map CommitmentData.commitment ⊆ qs.map Query.commitment := by
      intro c hc
      obtain ⟨q, hq, rfl⟩ := (hg.mem c).1 hc
      exact List.mem_map_of_mem hq
    have := (List.subperm_of_subset hg.nodup hsub).length_le
    simpa using this
  have hsub : List.range ps.length ⊆ cds.map CommitmentData.setIndex := by
    intro i hi
    obtain ⟨cd, hcd, rfl⟩ := hg.used i (by simpa using hi)
    exact List.mem_map_of_mem hcd
  have := (List.subperm_of_subset List.nodup_range hsub).length_le
  simp at this
  omega

theorem natDegree_lt_of_degree {p : F[X]} {n : ℕ} (hn : 0 < n) (h : p.degree < n) :
    p.natDegree < n := by
  rcases eq_or_ne p 0 with rfl | hp
  · simpa using hn
  · exact (natDegree_lt_iff_degree_lt hp).2 h

/-! ## The value of the quotients -/

theorem VSlot.Ok.r_spec {d : VSlot F K} {qs : List (Query F ι F)} (h : d.Ok e pr S qs) :
    ∃ r, lagrangeInterpolate d.pts d.evs = some r ∧ toPoly r = d.r ∧
      d.r.natDegree < d.pts.toFinset.card ∧
      ∀ (i : ℕ) x, d.pts[i]? = some x → d.r.eval x = d.evs.getD i 0 := by
  obtain ⟨r, h1, h2, h3, -⟩ := lagrangeInterpolate_spec d.pts d.evs h.len.symm h.nodup
  have hr : toPoly r = d.r := by rw [VSlot.r, h1]; rfl
  refine ⟨r, h1, hr, ?_, fun i x hi => ?_⟩
  · rw [← hr, List.toFinset_card_of_nodup h.nodup, ← h2]
    have hpos : 0 < r.length := by
      rw [h2]; exact List.length_pos_iff.2 h.ne
    exact natDegree_lt_of_degree hpos (degree_toPoly_lt r)
  · obtain ⟨hi', rfl⟩ := List.getElem?_eq_some_iff.1 hi
    rw [← hr, h3 i hi', List.getD_eq_getElem?_getD, List.getElem?_eq_getElem, Option.getD_some]

theorem divPoints_some {x v y : F} {pts : List F} (hn : pts.Nodup)
    (h : divPoints x v pts = some y) :
    x ∉ pts ∧ y = v * ((zer pts.toFinset).eval x)⁻¹ := by
  unfold divPoints at h
  induction pts generalizing v with
  | nil => cases h; simp [zer]
  | cons p pts ih =>
    rw [List.foldlM_cons] at h
    obtain ⟨v', h1, h2⟩ := Option.bind_eq_some_iff.1 h
    split_ifs at h1 with hp
    cases h1
    obtain ⟨hp1, hn'⟩ := List.nodup_cons.1 hn
    obtain ⟨h3, h4⟩ := ih hn' h2
    refine ⟨by simp only [List.mem_cons, not_or]; exact ⟨fun h => hp (by rw [h, sub_self]), h3⟩, ?_⟩
    rw [h4, List.toFinset_cons, zer_eval, zer_eval, Finset.prod_insert (by simpa using hp1),
      mul_inv]
    ring

/-- The verifier's expected value of the quotients' sum. -/
theorem msmEval_some {qs : List (Query F ι F)} {data : List (VSlot F K)}
    (hd : ∀ d ∈ data, d.Ok e pr S qs) (x₂ x₃ : F) (u : List F) (hu : u.length = data.length)
    {v : F}
    (h : (((data.map VSlot.pts).zip ((data.map fun d => (d.msm, d.pow, d.evs)).map
        fun q => q.2.2)).zip u).foldlM (fun acc pe =>
      (lagrangeInterpolate pe.1.1 pe.1.2).bind fun rPoly =>
      (divPoints x₃ (pe.2 - evalPolynomial rPoly x₃) pe.1.1).map fun eval => acc * x₂ + eval) 0
        = some v) :
    (∀ d ∈ data, x₃ ∉ d.pts) ∧
      v = horner x₂ (fun du : VSlot F K × F => (du.2 - du.1.r.eval x₃)
        * ((zer du.1.pts.toFinset).eval x₃)⁻¹) (data.zip u) := by
  have key : ∀ (data : List (VSlot F K)) (u : List F) (a : F), (∀ d ∈ data, d.Ok e pr S qs) →
      u.length = data.length →
      (((data.map VSlot.pts).zip ((data.map fun d => (d.msm, d.pow, d.evs)).map
        fun q => q.2.2)).zip u).foldlM (fun acc pe =>
      (lagrangeInterpolate pe.1.1 pe.1.2).bind fun rPoly =>
      (divPoints x₃ (pe.2 - evalPolynomial rPoly x₃) pe.1.1).map fun eval => acc * x₂ + eval) a
        = some v → (∀ d ∈ data, x₃ ∉ d.pts) ∧
      v = (data.zip u).foldl (fun acc (du : VSlot F K × F) => x₂ • acc + (du.2 - du.1.r.eval x₃)
        * ((zer du.1.pts.toFinset).eval x₃)⁻¹) a := by
    intro data
    induction data with
    | nil =>
      intro u a _ _ h
      cases h
      exact ⟨by simp, by simp⟩
    | cons d data ih =>
      intro u a hd hu h
      rcases u with _ | ⟨b, u⟩
      · simp at hu
      · simp only [List.map_cons, List.zip_cons_cons, List.foldlM_cons] at h
        obtain ⟨v', h1, h2⟩ := Option.bind_eq_some_iff.1 h
        obtain ⟨r, g1, g2, -, -⟩ := (hd d (by simp)).r_spec
        rw [g1, Option.bind_some] at h1
        obtain ⟨y, h3, rfl⟩ := Option.map_eq_some_iff.1 h1
        obtain ⟨h4, rfl⟩ := divPoints_some (hd d (by simp)).nodup h3
        obtain ⟨h5, h6⟩ := ih u _ (fun d hm => hd d (by simp [hm])) (by simpa using hu) h2
        refine ⟨?_, ?_⟩
        · intro d' hm
          rcases List.mem_cons.1 hm with rfl | hm
          · exact h4
          · exact h5 d' hm
        · rw [h6, List.zip_cons_cons, List.foldl_cons]
          congr 1
          rw [evalPolynomial_eq, g2, smul_eq_mul]
          ring
  exact key data u 0 hd hu h

/-! ## The last combination -/

theorem final_some (he : e.Valid) (hA : ∀ rep ∈ S, Algebraic pr rep) {qs : List (Query F ι F)}
    {data : List (VSlot F K)} (hd : ∀ d ∈ data, d.Ok e pr S qs) (x₄ : F) (u : List F)
    {m₀ m : MSM F K} {v₀ v : F} {w₀ : Comb F} (hm₀ : ∀ rep ∈ S, Reps e.toCoords pr rep m₀ w₀)
    (h : ((data.map fun d => (d.msm, d.pow, d.evs)).zip u).foldlM
      (fun (st : MSM F K × F) qu => ((st.1.scale x₄).addMsm pr qu.1.1).map
        fun m => (m, st.2 * x₄ + qu.2)) (m₀, v₀) = some (m, v)) :
    (∀ rep ∈ S, Reps e.toCoords pr rep m
        (horner x₄ (fun w : Comb F × F => w.1) ((w₀, v₀) :: (data.zip u).map fun du => (du.1.Q, du.2)))) ∧
      v = horner x₄ (fun w : Comb F × F => w.2) ((w₀, v₀) :: (data.zip u).map fun du => (du.1.Q, du.2)) := by
  have e1 : ∀ {B : Type} [AddCommGroup B] [Module F B] (f : Comb F × F → B),
      horner x₄ f ((w₀, v₀) :: (data.zip u).map fun du => (du.1.Q, du.2))
      = (data.zip u).foldl (fun acc du => x₄ • acc + f (du.1.Q, du.2)) (f (w₀, v₀)) := by
    intro B _ _ f
    simp [horner, List.foldl_map]
  rw [e1, e1]
  clear e1
  dsimp only
  induction data generalizing u m₀ v₀ w₀ with
  | nil => cases h; exact ⟨hm₀, rfl⟩
  | cons d data ih =>
    rcases u with _ | ⟨b, u⟩
    · cases h; exact ⟨hm₀, rfl⟩
    · simp only [List.map_cons, List.zip_cons_cons, List.foldlM_cons] at h
      obtain ⟨⟨m₁, v₁⟩, h1, h2⟩ := Option.bind_eq_some_iff.1 h
      obtain ⟨m', h3, h4⟩ := Option.map_eq_some_iff.1 h1
      simp only [Prod.mk.injEq] at h4
      obtain ⟨rfl, rfl⟩ := h4
      have hm₁ : ∀ rep ∈ S, Reps e.toCoords pr rep m' (x₄ • w₀ + d.Q) := by
        intro rep hr
        obtain ⟨m'', g1, g2⟩ := reps_add he.coords_valid (hA rep hr) (reps_scale (hm₀ rep hr) x₄)
          ((hd d (by simp)).reps rep hr)
        obtain rfl : m' = m'' := Option.some.inj (h3.symm.trans g1)
        exact g2
      have := ih (fun d hm => hd d (by simp [hm])) u hm₁ h2
      simp only [List.zip_cons_cons, List.foldl_cons, smul_eq_mul] at this ⊢
      rw [mul_comm x₄ v₀]
      exact this

theorem VSlot.Ok.mono {d : VSlot F K} {qs : List (Query F ι F)} {S' : Set (A → Comb F)}
    (h : d.Ok e pr S qs) (hs : S' ⊆ S) : d.Ok e pr S' qs :=
  ⟨h.nodup, h.ne, h.len, fun rep hr => h.reps rep (hs hr), h.degree, h.sub⟩

/-- Bounds that suffice for multipoint opening. -/
structure MultiBounds (pr : Params A) (N : ℕ → ℕ) (i q : ℕ) : Prop where
  x₁ : q - 1 ≤ N i
  x₂ : q - 1 ≤ N (i + 1)
  x₃ : pr.n + q - 1 ≤ N (i + 2)
  x₄ : q ≤ N (i + 3)
  ipa : IpaBounds pr N (i + 4)

theorem Logs.multiopen {mem : ι → Commitment F K A} {qs : List (Query F ι F)} {msm : MSM F K} :
    Logs (Comb F) e (Multiopen.verifyProof e pr mem qs msm) := by
  unfold Multiopen.verifyProof
  rcases constructIntermediateSets qs with err | ⟨cds, ps⟩
  · logs
  · logs

macro_rules | `(tactic| logs_ext) => `(tactic| exact Logs.multiopen)

theorem multiopen_doomed (he : e.Valid) (hpr : ParamsOk pr) (hA : ∀ rep ∈ S, Algebraic pr rep)
    {mem : ι → Commitment F K A} {P : ι → Comb F} {qs : List (Query F ι F)}
    (hqs : QueriesOk e pr S mem P qs) {i : ℕ} (hN : MultiBounds pr N i qs.length)
    {q : Query F ι F} (hq : q ∈ qs) (hne : (P q.commitment).1.eval q.point ≠ q.eval) :
    Doomed e N i S (fun h => Multiopen.verifyProof (withHash e h) pr mem qs MSM.new)
      fun gd j S' => (∀ rep ∈ S', GuardBad e pr rep gd) ∧ j = i + 6 + pr.k ∧ S' ⊆ S := by
  have hn := hpr.ok.pos
  unfold Multiopen.verifyProof
  simp only [withHash_toCoords]
  by_cases hnd : (qs.map fun q => (q.commitment, q.point)).Nodup
  swap
  · rw [(construct_spec qs).1 hnd]
    exact .fail fun hs s x h => by
      obtain ⟨a, s₁, h1, h2⟩ := bind_ok (b := x.1) (s' := x.2) h
      obtain ⟨a, s₁, h1, h2⟩ := bind_ok h2
      obtain ⟨a, s₁, h1, h2⟩ := bind_ok h2
      cases h1
  obtain ⟨cds, ps, hcs, hg⟩ := (construct_spec qs).2 hnd
  rw [hcs]
  dsimp only
  obtain ⟨s, k, pts, hs, hk, B, hB, hx₁⟩ := slot_bad hnd hg hq hne
  refine (Doomed.squeeze B (hB.trans hN.x₁)).bind ?_
  rintro x₁ _ S ⟨hx, rfl, rfl⟩
  replace hx₁ := hx₁ x₁ hx
  clear hx B hB
  -- what the accumulators stand for depends on `x₁` only
  rcases hout : accumulate CommitmentData.setIndex (accCommitment e.toCoords pr mem x₁)
      (ps.map fun ps => (MSM.new, 1, List.replicate ps.length 0)) cds.reverse with _ | out
  · exact .fail fun hs s x h => by
      obtain ⟨a, s₁, h1, h2⟩ := bind_ok (b := x.1) (s' := x.2) h
      obtain ⟨a, s₁, h1, h2⟩ := bind_ok h2
      cases h1
      obtain ⟨a, s₁, h1, h2⟩ := bind_ok h2
      dsimp only at h1
      rw [hout] at h1
      cases h1
  obtain ⟨data, rfl, rfl, hd, hQ⟩ := vslots he hA hqs hg x₁ hout
  obtain ⟨d, hsd, rfl⟩ : ∃ d, data[s]? = some d ∧ d.pts = pts := by
    rw [List.getElem?_map] at hs
    exact Option.map_eq_some_iff.1 hs
  have hdm := List.mem_of_getElem? hsd
  obtain ⟨-, -, -, -, hr⟩ := (hd d hdm).r_spec
  set T : Finset F := (qs.map Query.point).toFinset with hT
  have hTcard : T.card ≤ qs.length := by
    have := List.toFinset_card_le (qs.map Query.point)
    simpa [hT] using this
  have hlen : data.length ≤ qs.length := by simpa using slots_le hg
  have hptsT : ∀ d ∈ data, d.pts.toFinset ⊆ T := by
    intro d hm x hx
    obtain ⟨q, hq, rfl⟩ := (hd d hm).sub x (by simpa using hx)
    rw [hT, List.mem_toFinset]
    exact List.mem_map_of_mem hq
  have hpT : q.point ∈ T := by rw [hT, List.mem_toFinset]; exact List.mem_map_of_mem hq
  obtain ⟨B, hB, hx₂⟩ := numerator_bad T (data.map VSlot.quot) q.point hpT d.quot
    (List.mem_map_of_mem hdm) (by simpa [VSlot.quot] using List.mem_of_getElem? hk) (by
      simp only [VSlot.quot, eval_sub]
      rw [hr k _ hk, (hQ s d hsd).1, (hQ s d hsd).2 k]
      exact sub_ne_zero.2 hx₁)
  rw [List.length_map] at hB
  refine (Doomed.squeeze B (hB.trans ((Nat.sub_le_sub_right hlen 1).trans hN.x₂))).bind ?_
  rintro x₂ _ S ⟨hx, rfl, rfl⟩
  replace hx₂ := hx₂ x₂ hx
  clear hx B hB
  refine Doomed.bind (Q := fun a j S' => a = (cds, data.map VSlot.pts) ∧ j = i + 1 + 1 ∧ S' = S)
    (.ret ⟨rfl, rfl, rfl⟩) ?_
  rintro _ _ S ⟨rfl, rfl, rfl⟩
  dsimp only
  refine (Doomed.panics _).bind ?_
  rintro out' _ S ⟨h1, rfl, rfl⟩
  rw [hout] at h1
  obtain rfl := Option.some.inj h1
  refine Doomed.readPoint.mapErr.bind ?_
  rintro qc _ S₁ ⟨rfl, v', hv'⟩
  have hv'deg : v'.1.natDegree < pr.n := by
    obtain ⟨rep, hrep⟩ := hv'.ne
    have := (hA rep (hv'.sub hrep)).degree qc
    rw [hv'.eq rep hrep] at this
    exact natDegree_lt_of_degree hn this
  obtain ⟨B, hB, hx₃⟩ := quotient_bad T pr.n hn (data.map VSlot.quot) x₂ q.point hpT (by
    intro d' hd'
    obtain ⟨d, hm, rfl⟩ := List.mem_map.1 hd'
    obtain ⟨-, -, -, h3, -⟩ := (hd d hm).r_spec
    exact ⟨hptsT d hm, natDegree_lt_of_degree hn (hd d hm).degree, h3⟩) hx₂ v'.1 hv'deg
  refine (Doomed.squeeze B (hB.trans (le_trans (by omega) hN.x₃))).bind ?_
  rintro x₃ _ S₁ ⟨hx, rfl, rfl⟩
  replace hx₃ := hx₃ x₃ hx
  clear hx B hB
  refine Doomed.bind (Q := fun u j S' => u.length = data.length ∧ j = i + 1 + 1 + 1 ∧
    Narrows S₁ S') ?_ ?_
  · refine (Doomed.mapM (e := e) (V := Comb F) (data.map fun d => (d.msm, d.pow, d.evs))
      (fun _ h => mapErr .sampling (R.readScalar (withHash e h))) (fun _ _ _ => True)
      (fun _ _ _ _ _ h => h) ?_).mono ?_
    · intro k _ S' _
      refine Doomed.readScalar.mapErr.mono ?_
      rintro a j S'' ⟨rfl, rfl⟩
      exact ⟨trivial, rfl, .refl _⟩
    · rintro u j S' ⟨h1, rfl, h2⟩
      exact ⟨by simpa using h1.length_eq.symm, rfl, h2⟩
  rintro u _ S₂ ⟨hu, rfl, hS₂⟩
  refine (Doomed.panics _).bind ?_
  rintro v _ S₂ ⟨hv, rfl, rfl⟩
  obtain ⟨hx₃p, rfl⟩ := msmEval_some hd x₂ x₃ u hu hv
  have hx₃T : x₃ ∉ T := by
    intro h
    rw [hT, List.mem_toFinset] at h
    obtain ⟨q', hq', rfl⟩ := List.mem_map.1 h
    obtain ⟨cd, hcd, hc⟩ := List.mem_map.1 ((hg.mem q'.commitment).2 ⟨q', hq', rfl⟩)
    obtain ⟨pts', h1, -, h3, -⟩ := hg.group cd hcd
    obtain ⟨d', hd', rfl⟩ := List.mem_map.1 (List.mem_of_getElem? h1)
    exact hx₃p d' hd' ((h3 _).2 ⟨q', hq', hc.symm, rfl⟩)
  have hx₃q := quotients_ne T (data.map VSlot.quot) x₂ x₃ v'.1 hx₃T (by
    intro d' hd'
    obtain ⟨d, hm, rfl⟩ := List.mem_map.1 hd'
    exact hptsT d hm) hx₃
  -- either a claimed value is wrong or the claimed value of the quotient is
  set v := horner x₂ (fun du : VSlot F K × F => (du.2 - du.1.r.eval x₃)
        * ((zer du.1.pts.toFinset).eval x₃)⁻¹) (data.zip u) with hvdef
  have hwrong : ∃ w ∈ (v', v) :: (data.zip u).map fun du => (du.1.Q, du.2),
      w.1.1.eval x₃ - w.2 ≠ 0 := by
    by_contra hcon
    push Not at hcon
    apply hx₃q
    have h0 := hcon _ (List.mem_cons_self ..)
    rw [sub_eq_zero.1 h0, hvdef, horner_map]
    have e1 : data = (data.zip u).map Prod.fst := by
      rw [List.map_fst_zip]; omega
    conv_lhs => rw [e1]
    rw [horner_map]
    apply horner_congr
    intro du hdu
    have h1 := hcon _ (List.mem_cons_of_mem _ (List.mem_map_of_mem (f := fun du : VSlot F K × F => (du.1.Q, du.2)) hdu))
    dsimp only at h1
    simp only [VSlot.quot]
    rw [sub_eq_zero.1 h1]
  obtain ⟨B, hB, hx₄⟩ := horner_bad (fun w : Comb F × F => w.1.1.eval x₃ - w.2) _ hwrong
  refine (Doomed.squeeze B (hB.trans (le_trans ?_ hN.x₄))).bind ?_
  · simp; omega
  rintro x₄ _ S₂ ⟨hx, rfl, rfl⟩
  replace hx₄ := hx₄ x₄ hx
  have hsub : S₂ ⊆ S := hS₂.sub.trans hv'.sub
  refine (Doomed.panics _).bind ?_
  rintro m₀ _ S₂ ⟨hm₀, rfl, rfl⟩
  have hm₀r : ∀ rep ∈ S₂, Reps e.toCoords pr rep m₀ v' := by
    intro rep hrep
    obtain ⟨m', g1, g2⟩ := reps_append he.coords_valid (hA rep (hsub hrep)) reps_new 1 qc
    obtain rfl : m₀ = m' := Option.some.inj (hm₀.symm.trans g1)
    rw [hv'.eq rep (hS₂.sub hrep), one_smul, zero_add] at g2
    exact g2
  refine (Doomed.panics _).bind ?_
  rintro ⟨m, w⟩ _ S₂ ⟨hfin, rfl, rfl⟩
  obtain ⟨hm, rfl⟩ := final_some he (fun rep h => hA rep (hsub h))
    (fun d hm => (hd d hm).mono hsub) x₄ u hm₀r hfin
  refine (ipa_doomed he hpr (fun rep h => hA rep (hsub h)) hN.ipa hm x₃ _ ?_).mono ?_
  · intro h
    apply hx₄
    rw [horner_sub, sub_eq_zero]
    refine Eq.trans ?_ h
    exact (horner_linear (fun v : Comb F => v.1.eval x₃) (fun a b => by simp)
      (fun c a => by simp) (by simp) x₄ _ _).symm
  · rintro gd j S' ⟨h1, rfl, h2⟩
    exact ⟨h1, by omega, h2.trans hsub⟩

/-- The numbers of bad challenges: `x₁`, `x₂`, `x₃`, `x₄`, `ξ`, `z`, and the rounds. -/
def multiBound (n q : ℕ) : ℕ → ℕ
  | 0 => q - 1
  | 1 => q - 1
  | 2 => n + q - 1
  | 3 => q
  | 4 => 1
  | 5 => 1
  | _ => 2

theorem multiBound_ok (pr : Params A) (q : ℕ) : MultiBounds pr (multiBound pr.n q) 0 q :=
  ⟨le_rfl, le_rfl, le_rfl, le_rfl, le_rfl, le_rfl, fun t _ => by
    rw [show 0 + 4 + 2 + t = t + 6 by omega]; exact le_rfl⟩

/-- **C52**: if one of the queries claims a value that the polynomial represented by its commitment
does not take at its point, then there are sets of bad challenges, chosen before the hash function
and of the sizes `multiBound`. Every run of the multipoint verifier whose final check succeeds, with
any hash function and on any proof, meets a bad challenge or its final check is a non-trivial
relation between the generators. -/
theorem multiopen_sound [DecidableEq A] (he : e.Valid) (hpr : ParamsOk pr)
    (mem : ι → Commitment F K A) (P : ι → Comb F) (qs : List (Query F ι F))
    (hdeg : ∀ q ∈ qs, (P q.commitment).1.degree < pr.n)
    (q : Query F ι F) (hq : q ∈ qs) (hne : (P q.commitment).1.eval q.point ≠ q.eval) :
    ∃ bad : List (Item F A (Comb F)) → Finset F,
      (∀ l, (bad l).card ≤ multiBound pr.n qs.length (challenges l)) ∧
      ∀ rep, Algebraic pr rep →
        (∀ q ∈ qs, Represents e.toCoords pr rep (mem q.commitment) (P q.commitment)) →
        ∀ (hash : Hash F) (st : RState F) (gd : Guard F K) (st' : RState F) (m : MSM F K),
          Multiopen.verifyProof (withHash e hash) pr mem qs MSM.new st = .ok (gd, st') →
          gd.useChallenges pr = some m → m.eval e.toCoords pr = some true →
          ∃ l, Logged (withHash e hash) rep st.absorbed l st'.absorbed ∧
            (Avoids bad l → Relation pr (relOf e.toCoords rep m)) := by
  have hd := multiopen_doomed (S := {rep | Algebraic pr rep ∧
      ∀ q ∈ qs, Represents e.toCoords pr rep (mem q.commitment) (P q.commitment)}) he hpr
    (fun rep h => h.1) ⟨fun rep h => h.2, hdeg⟩ (multiBound_ok pr qs.length) hq hne
  obtain ⟨bad, h1, h2⟩ := hd.bad he
  refine ⟨bad, fun l => by simpa using h1 l, ?_⟩
  intro rep hr hm hash st gd st' m hv hu hev
  obtain ⟨l, h3, h4⟩ := h2 hash st gd st' hv rep ⟨hr, hm⟩
  refine ⟨l, h3, fun hav => ?_⟩
  obtain ⟨S', hS, h5, -⟩ := h4 hav
  obtain ⟨w, hw, hw0⟩ := useChallenges_bad hpr (h5 rep hS) hu
  exact relation_of_eval he hpr hr hw hw0 hev

end Verif.Sound
