import Verif.Hiding.Ipa
import Verif.Multiopen.Props

/-!
# Multipoint openings hide the polynomials (C76)
-/

namespace Verif.Hiding

open Verif.Msm Verif.Transcript Verif.Multicore Verif.PolyArith Verif.Vanishing Verif.Ipa
open Verif.Multiopen
open Polynomial (X C)

variable {F K A ι : Type} [Field F] [DecidableEq F] [Field K] [LinearOrder K] [AddCommGroup A]
  [Module F A] [DecidableEq ι]

omit [DecidableEq F] [DecidableEq ι] in
/-- The combined polynomials of all sets of points. -/
theorem acc_slots {ps : List (List F)} {cds : List (CommitmentData ι Unit)} {threads : ℕ}
    (ht : threads ≠ 0) (pr : Params A) (hn : 0 < pr.n) (mem : ι → List F × F) (x₁ : F)
    (hidx : ∀ cd ∈ cds, cd.setIndex < ps.length)
    (hused : ∀ i < ps.length, ∃ cd ∈ cds, cd.setIndex = i)
    (hlen : ∀ cd ∈ cds, (mem cd.commitment).1.length = pr.n) :
    ∃ data : List (List F × F),
      accumulate CommitmentData.setIndex (accPoly threads mem x₁)
        (List.replicate ps.length (none, 0)) cds = some (data.map fun d => (some d.1, d.2)) ∧
      data.length = ps.length ∧ ∀ s (hs : s < data.length), data[s].1.length = pr.n ∧
        (∀ y, evalPolynomial data[s].1 y
          = horner x₁ (fun cd => evalPolynomial (mem cd.commitment).1 y)
              (cds.filter fun cd => cd.setIndex = s)) ∧
        commitOf pr data[s]
          = horner x₁ (fun cd => commitOf pr (mem cd.commitment))
              (cds.filter fun cd => cd.setIndex = s) := by
  have hslot : ∀ s < ps.length, ∃ d : List F × F,
      (cds.filter fun cd => cd.setIndex = s).foldlM (fun st cd => accPoly threads mem x₁ cd st)
        (none, 0) = some (some d.1, d.2) ∧ d.1.length = pr.n ∧
        (∀ y, evalPolynomial d.1 y
          = horner x₁ (fun cd => evalPolynomial (mem cd.commitment).1 y)
              (cds.filter fun cd => cd.setIndex = s)) ∧
        commitOf pr d
          = horner x₁ (fun cd => commitOf pr (mem cd.commitment))
              (cds.filter fun cd => cd.setIndex = s) := by
    intro s hs
    obtain ⟨st, h1, -, h2⟩ := accPoly_fold threads ht pr hn mem x₁
      (cds.filter fun cd => cd.setIndex = s) fun cd hcd => hlen cd (List.mem_filter.1 hcd).1
    obtain ⟨cd, hcd, hs⟩ := hused s hs
    obtain ⟨Q, h3, h4, h5, h6⟩ := h2 (List.ne_nil_of_mem (List.mem_filter.2 ⟨hcd, by simpa using hs⟩))
    exact ⟨(Q, st.2), by rw [h1, ← h3], h4, h5, h6⟩
  obtain ⟨data, hdl, hd⟩ := exists_list _ _ hslot
  obtain ⟨qs, hqs⟩ := accumulate_total CommitmentData.setIndex (accPoly threads mem x₁) cds
    (List.replicate ps.length (none, 0)) (by simpa using hidx) (by
      intro s x hx
      have hs : s < data.length := by
        have := (List.getElem?_eq_some_iff.1 hx).1; simp at this; omega
      obtain ⟨-, rfl⟩ := by
        have := (List.getElem?_eq_some_iff.1 hx).2; simpa [eq_comm] using And.intro hs this
      rw [(hd s hs).1]; rfl)
  refine ⟨data, ?_, hdl, fun s hs => (hd s hs).2⟩
  rw [hqs]
  congr 1
  obtain ⟨h1, h2⟩ := accumulate_some _ _ _ _ _ hqs
  apply List.ext_getElem?
  intro s
  by_cases hs : s < data.length
  · obtain ⟨y, h3, h4⟩ := h2 s (none, 0) (by rw [List.getElem?_replicate, if_pos (by omega)])
    rw [(hd s hs).1] at h3
    cases h3
    rw [h4, List.getElem?_map, List.getElem?_eq_getElem hs]; rfl
  · rw [List.getElem?_eq_none (by rw [h1]; simp; omega), List.getElem?_eq_none (by simp; omega)]

/-- Two combined polynomials that cannot be told apart by the commitment, the values at the points
of their set and the value at `x₃`. -/
structure Twin (pr : Params A) (x₃ : F) (pts : List F) (d d2 : List F × F) : Prop where
  len : d.1.length = pr.n
  len2 : d2.1.length = pr.n
  comm : commitOf pr d2 = commitOf pr d
  nodup : pts.Nodup
  notin : x₃ ∉ pts
  eval : ∀ x ∈ pts, evalPolynomial d2.1 x = evalPolynomial d.1 x
  eval₃ : evalPolynomial d2.1 x₃ = evalPolynomial d.1 x₃

theorem kate_fold_total (pts : List F) (Q Q2 quot : List F) (hl : Q.length = Q2.length)
    (h : pts.foldlM (fun (poly : List F) point => kateDivision poly point) Q = some quot) :
    ∃ quot2, pts.foldlM (fun (poly : List F) point => kateDivision poly point) Q2 = some quot2 := by
  induction pts generalizing Q Q2 with
  | nil => exact ⟨_, rfl⟩
  | cons a pts ih =>
    rw [List.foldlM_cons] at h ⊢
    obtain ⟨q1, h1, h2⟩ := Option.bind_eq_some_iff.1 h
    have hne : kateDivision Q2 a ≠ none := by
      intro h0
      rw [kateDivision_panics] at h0
      have hQ : Q = [] := by rw [h0] at hl; exact List.length_eq_zero_iff.1 hl
      rw [(kateDivision_panics Q a).2 hQ] at h1
      cases h1
    obtain ⟨q2, h3⟩ := Option.ne_none_iff_exists'.1 hne
    rw [h3]
    have e1 := (kateDivision_spec _ _ _ h1).1
    have e2 := (kateDivision_spec _ _ _ h3).1
    exact ih q1 q2 (by omega) h2

theorem kate_fold_eval {pts : List F} (hn : pts.Nodup) {Q Q2 quot quot2 : List F}
    (h : pts.foldlM (fun (poly : List F) point => kateDivision poly point) Q = some quot)
    (h2 : pts.foldlM (fun (poly : List F) point => kateDivision poly point) Q2 = some quot2)
    (he : ∀ x ∈ pts, evalPolynomial Q2 x = evalPolynomial Q x) {x : F} (hx : x ∉ pts)
    (hex : evalPolynomial Q2 x = evalPolynomial Q x) :
    evalPolynomial quot2 x = evalPolynomial quot x := by
  obtain ⟨-, r, hr, e⟩ := kate_fold pts Q quot h
  obtain ⟨-, r2, hr2, e2⟩ := kate_fold pts Q2 quot2 h2
  have hroot : ∀ p ∈ pts, ((pts.map fun p => X - C p).prod).eval p = 0 := by
    intro p hp
    rw [Polynomial.eval_list_prod, List.map_map, List.prod_eq_zero_iff]
    exact List.mem_map.2 ⟨p, hp, by simp⟩
  have hrr : r2 = r := by
    refine Polynomial.eq_of_degree_sub_lt_of_eval_finset_eq pts.toFinset ?_ ?_
    · rw [List.toFinset_card_of_nodup hn]
      exact lt_of_le_of_lt (Polynomial.degree_sub_le _ _) (max_lt hr2 hr)
    · intro p hp
      rw [List.mem_toFinset] at hp
      have := he p hp
      rw [evalPolynomial_eq, evalPolynomial_eq, e, e2, Polynomial.eval_add, Polynomial.eval_add,
        Polynomial.eval_mul, Polynomial.eval_mul, hroot p hp] at this
      simpa using this
  have hne : ((pts.map fun p => X - C p).prod).eval x ≠ 0 := by
    rw [Polynomial.eval_list_prod, List.map_map]
    intro h0
    rw [List.prod_eq_zero_iff] at h0
    obtain ⟨p, hp, h0⟩ := List.mem_map.1 h0
    simp only [Function.comp, Polynomial.eval_sub, Polynomial.eval_X, Polynomial.eval_C,
      sub_eq_zero] at h0
    exact hx (h0 ▸ hp)
  rw [evalPolynomial_eq, evalPolynomial_eq, e, e2, hrr, Polynomial.eval_add, Polynomial.eval_add,
    Polynomial.eval_mul, Polynomial.eval_mul] at hex
  rw [evalPolynomial_eq, evalPolynomial_eq]
  exact mul_right_cancel₀ hne (add_right_cancel hex)

/-- One step of folding the quotients. -/
theorem qPrime_step {threads : ℕ} (ht : threads ≠ 0) {n : ℕ} (hn : 0 < n) (x₂ : F)
    {acc acc₁ : Option (List F)} (hacc : ∀ q, acc = some q → q.length = n) {pts Q quot : List F}
    (hQ : Q.length = n)
    (hq : pts.foldlM (fun (poly : List F) point => kateDivision poly point) Q = some quot) :
    ∃ q₁, qPrime threads n x₂ acc (pts, Q) = some (some q₁) ∧ q₁.length = n ∧
      ∀ x, evalPolynomial q₁ x
        = (acc.elim 0 fun q => evalPolynomial q x) * x₂ + evalPolynomial quot x := by
  obtain ⟨hql, -⟩ := kate_fold _ _ _ hq
  have hql' : quot.length ≤ n := by omega
  unfold qPrime
  dsimp only
  rw [hq, Option.bind_some, List.take_of_length_le hql']
  generalize hpd : quot ++ List.replicate (n - quot.length) 0 = poly
  have hpl : poly.length = n := by rw [← hpd]; simp; omega
  have hpe : ∀ x, evalPolynomial poly x = evalPolynomial quot x := by
    intro x
    rw [← hpd, evalPolynomial_eq, toPoly_append, toPoly_replicate_zero, evalPolynomial_eq]
    simp
  cases acc with
  | none => exact ⟨poly, rfl, hpl, fun x => by simp [hpe]⟩
  | some q =>
    have hq := hacc q rfl
    have hqn : q ≠ [] := by intro h; rw [h] at hq; simp at hq; omega
    simp only [polyMul_eq threads ht q hqn x₂, Option.bind_some]
    rw [polyAdd_eq threads ht _ _ (by simpa using hqn) (by simp [hq, hpl])]
    refine ⟨_, rfl, by simp [hq, hpl], fun x => ?_⟩
    rw [evalPolynomial_eq, toPoly_zipWith_add (by simp [hq, hpl]), toPoly_map_mul,
      Polynomial.eval_add, Polynomial.eval_mul, ← evalPolynomial_eq, ← evalPolynomial_eq, hpe]
    simp [mul_comm]

theorem qPrime_twin {threads : ℕ} (ht : threads ≠ 0) {pr : Params A} (hn : 0 < pr.n) (x₂ x₃ : F)
    (l : List (List F × (List F × F) × (List F × F)))
    (hl : ∀ t ∈ l, Twin pr x₃ t.1 t.2.1 t.2.2) (acc acc2 q' : Option (List F))
    (hacc : ∀ q, acc = some q → q.length = pr.n) (hacc2 : ∀ q, acc2 = some q → q.length = pr.n)
    (hiff : acc.isSome = acc2.isSome)
    (he : (acc2.elim 0 fun q => evalPolynomial q x₃) = acc.elim 0 fun q => evalPolynomial q x₃)
    (h : (l.map fun t => (t.1, t.2.1.1)).foldlM (qPrime threads pr.n x₂) acc = some q') :
    ∃ q2, (l.map fun t => (t.1, t.2.2.1)).foldlM (qPrime threads pr.n x₂) acc2 = some q2 ∧
      (∀ q, q' = some q → q.length = pr.n) ∧ (∀ q, q2 = some q → q.length = pr.n) ∧
      q'.isSome = q2.isSome ∧
      (q2.elim 0 fun q => evalPolynomial q x₃) = q'.elim 0 fun q => evalPolynomial q x₃ := by
  induction l generalizing acc acc2 with
  | nil => cases h; exact ⟨_, rfl, hacc, hacc2, hiff, he⟩
  | cons t l ih =>
    have hd := hl t (by simp)
    rw [List.map_cons, List.foldlM_cons] at h
    obtain ⟨acc₁, h1, h2⟩ := Option.bind_eq_some_iff.1 h
    have hq : ∃ quot, t.1.foldlM (fun (poly : List F) point => kateDivision poly point) t.2.1.1
        = some quot := by
      unfold qPrime at h1
      obtain ⟨quot, h3, -⟩ := Option.bind_eq_some_iff.1 h1
      exact ⟨quot, h3⟩
    obtain ⟨quot, hq⟩ := hq
    obtain ⟨quot2, hq2⟩ := kate_fold_total _ _ t.2.2.1 _ (hd.len.trans hd.len2.symm) hq
    obtain ⟨r1, e1, e2, e3⟩ := qPrime_step ht hn x₂ (acc₁ := none) hacc hd.len hq
    obtain ⟨r2, e4, e5, e6⟩ := qPrime_step ht hn x₂ (acc₁ := none) hacc2 hd.len2 hq2
    rw [e1] at h1
    cases h1
    rw [List.map_cons, List.foldlM_cons, e4]
    refine ih (fun t ht => hl t (by simp [ht])) (some r1) (some r2)
      (fun q hq => by cases hq; exact e2) (fun q hq => by cases hq; exact e5) rfl ?_ h2
    simp only [Option.elim_some]
    rw [e3, e6, he, kate_fold_eval hd.nodup hq hq2 hd.eval hd.notin hd.eval₃]

/-- The last combination. -/
theorem final_twin {threads : ℕ} (ht : threads ≠ 0) {pr : Params A} (hn : 0 < pr.n) (x₃ x₄ : F)
    (l : List (List F × (List F × F) × (List F × F)))
    (hl : ∀ t ∈ l, Twin pr x₃ t.1 t.2.1 t.2.2) (p p2 : List F) (b b2 : F) (r : List F × F)
    (hp : p.length = pr.n) (hp2 : p2.length = pr.n) (hc : commitOf pr (p2, b2) = commitOf pr (p, b))
    (he : evalPolynomial p2 x₃ = evalPolynomial p x₃)
    (h : (l.map fun t => (t.2.1.1, t.2.1.2)).foldlM (fun (st : List F × F) pb =>
        ((polyMul threads st.1 x₄).bind fun q => polyAdd threads q pb.1).map
          fun q => (q, st.2 * x₄ + pb.2)) (p, b) = some r) :
    ∃ r2, (l.map fun t => (t.2.2.1, t.2.2.2)).foldlM (fun (st : List F × F) pb =>
        ((polyMul threads st.1 x₄).bind fun q => polyAdd threads q pb.1).map
          fun q => (q, st.2 * x₄ + pb.2)) (p2, b2) = some r2 ∧ r.1.length = pr.n ∧
      r2.1.length = pr.n ∧ commitOf pr r2 = commitOf pr r ∧
      evalPolynomial r2.1 x₃ = evalPolynomial r.1 x₃ := by
  induction l generalizing p p2 b b2 with
  | nil => cases h; exact ⟨_, rfl, hp, hp2, hc, he⟩
  | cons t l ih =>
    have hd := hl t (by simp)
    have step : ∀ (p : List F) (b : F) (d : List F × F), p.length = pr.n → d.1.length = pr.n →
        (((polyMul threads p x₄).bind fun q => polyAdd threads q d.1).map
          fun q => (q, b * x₄ + d.2)) =
          some (List.zipWith (· + ·) (p.map (· * x₄)) d.1, b * x₄ + d.2) ∧
        commitOf pr (List.zipWith (· + ·) (p.map (· * x₄)) d.1, b * x₄ + d.2)
            = x₄ • commitOf pr (p, b) + commitOf pr d ∧
        evalPolynomial (List.zipWith (· + ·) (p.map (· * x₄)) d.1) x₃
          = evalPolynomial p x₃ * x₄ + evalPolynomial d.1 x₃ := by
      intro p b d hp hd
      have hpn : p ≠ [] := by intro h; rw [h] at hp; simp at hp; omega
      refine ⟨?_, ?_, ?_⟩
      · rw [polyMul_eq threads ht p hpn x₄, Option.bind_some,
          polyAdd_eq threads ht _ _ (by simpa using hpn) (by simp [hp, hd])]
        rfl
      · simp only [commitOf]
        rw [dot_zipWith_add _ _ _ (by simp [hp, hd]), dot_map_mul]
        module
      · rw [evalPolynomial_eq, toPoly_zipWith_add (by simp [hp, hd]), toPoly_map_mul,
          Polynomial.eval_add, Polynomial.eval_mul, ← evalPolynomial_eq, ← evalPolynomial_eq]
        simp [mul_comm]
    obtain ⟨s1, s2, s3⟩ := step p b t.2.1 hp hd.len
    obtain ⟨s4, s5, s6⟩ := step p2 b2 t.2.2 hp2 hd.len2
    rw [List.map_cons, List.foldlM_cons] at h ⊢
    rw [s1] at h
    rw [s4]
    exact ih (fun t ht => hl t (by simp [ht])) _ _ _ _ (by simp [hp, hd.len])
      (by simp [hp2, hd.len2]) (by rw [s2, s5, hc, hd.comm]) (by rw [s3, s6, he, hd.eval₃]) h

theorem mapM_some_fst (data : List (List F × F)) :
    (data.map fun d => (some d.1, d.2)).mapM (fun q : Option (List F) × F => q.1)
      = some (data.map Prod.fst) := by
  induction data with
  | nil => rfl
  | cons d t ih => rw [List.map_cons, List.mapM_cons, ih]; rfl

theorem mapM_writeScalar_ok {e : Enc F K A} {α : Type} (f : α → F) (l : List α) (s s' : WState F)
    (u : List Unit) (h : (l.mapM fun q => W.writeScalar e (f q)) s = .ok (u, s')) :
    s'.trace = s.trace := by
  induction l generalizing s u with
  | nil => cases h; rfl
  | cons a l ih =>
    rw [List.mapM_cons] at h
    obtain ⟨_, s1, h1, h⟩ := bind_ok h
    obtain ⟨_, s2, h2, h⟩ := bind_ok h
    cases h
    rw [ih _ _ h2, writeScalar_ok h1]

theorem panics_some_bind {σ α β : Type} (a : α) (f : α → StateT σ (Except Err) β) (s : σ) :
    (panics (some a) >>= f) s = f a s := rfl

/-- **C76.** A multipoint opening hides the polynomials: take any run of the prover, with
challenges such that `x₃` is none of the queried points, `ξ ≠ 0` and the round challenges are not the one unlucky
list.  Then any other polynomials with the same commitments, the same values at the queried points
and the same combined values at `x₃` have random choices with which the prover writes the same
proof, bit for bit, to the same transcript. -/
theorem multiopen_hiding {threads : ℕ} (ht : threads ≠ 0) {e : Enc F K A} {pr : Params A}
    (hpr : ParamsOk pr) (hw : ∀ a : A, ∃ r : F, r • pr.w = a) (hw0 : pr.w ≠ 0)
    {mem : ι → List F × F} {qBlind : F} {rand : Random F} {queries : List (Query F ι Unit)}
    (hlen : ∀ q ∈ queries, (mem q.commitment).1.length = pr.n) {st st' : WState F}
    (h : Multiopen.createProof threads e pr mem qBlind rand queries st = .ok ((), st')) :
    ∃ (x₁ x₂ x₃ x₄ xi z : F) (us : List F), us.length = pr.k ∧
      st'.trace = us.reverse ++ z :: xi :: x₄ :: x₃ :: x₂ :: x₁ :: st.trace ∧
      (xi ≠ 0 → us.map (·⁻¹) ≠ unlucky x₃ pr.k → (∀ q ∈ queries, q.point ≠ x₃) →
        ∀ mem2 : ι → List F × F,
          (∀ q ∈ queries, (mem2 q.commitment).1.length = pr.n ∧
            commitOf pr (mem2 q.commitment) = commitOf pr (mem q.commitment) ∧
            evalPolynomial (mem2 q.commitment).1 q.point
              = evalPolynomial (mem q.commitment).1 q.point) →
          (∀ cds ps, constructIntermediateSets queries = .ok (cds, ps) → ∀ s,
            horner x₁ (fun cd : CommitmentData ι Unit =>
              evalPolynomial (mem2 cd.commitment).1 x₃) (cds.filter fun cd => cd.setIndex = s) =
            horner x₁ (fun cd : CommitmentData ι Unit =>
              evalPolynomial (mem cd.commitment).1 x₃) (cds.filter fun cd => cd.setIndex = s)) →
          ∃ qBlind2 rand2,
            Multiopen.createProof threads e pr mem2 qBlind2 rand2 queries st = .ok ((), st')) := by
  have hn : 0 < pr.n := hpr.ok.pos
  unfold Multiopen.createProof at h
  obtain ⟨x₁, s1, hx1, h⟩ := bind_ok h
  obtain ⟨x₂, s2, hx2, h⟩ := bind_ok h
  obtain ⟨cp, s3, hcp, h⟩ := bind_ok h
  have hcons : constructIntermediateSets queries = .ok cp ∧ s3 = s2 := by
    cases hc : constructIntermediateSets queries with
    | ok r => rw [hc] at hcp; cases hcp; exact ⟨rfl, rfl⟩
    | error er => rw [hc] at hcp; cases er <;> cases hcp
  obtain ⟨hcons, rfl⟩ := hcons
  obtain ⟨cds, ps⟩ := cp
  have hG : Grouping queries cds ps := by
    by_cases hnd : (queries.map fun q => (q.commitment, q.point)).Nodup
    · obtain ⟨a, b, h1, h2⟩ := (construct_spec queries).2 hnd
      rw [hcons] at h1
      cases h1
      exact h2
    · have := (construct_spec queries).1 hnd
      rw [hcons] at this
      cases this
  have hidx : ∀ cd ∈ cds, cd.setIndex < ps.length := by
    intro cd hcd
    obtain ⟨pts, h1, -⟩ := hG.group cd hcd
    exact (List.getElem?_eq_some_iff.1 h1).1
  have hq : ∀ cd ∈ cds, ∃ q ∈ queries, q.commitment = cd.commitment := fun cd hcd =>
    (hG.mem _).1 (List.mem_map_of_mem hcd)
  obtain ⟨data, hd1, hdl, hd⟩ := acc_slots ht pr hn mem x₁ hidx hG.used (by
    intro cd hcd
    obtain ⟨q, h1, h2⟩ := hq cd hcd
    rw [← h2]; exact hlen q h1)
  dsimp only at h
  rw [hd1] at h
  replace h := (panics_some_bind _ _ _).symm.trans h
  rw [mapM_some_fst] at h
  replace h := (panics_some_bind _ _ _).symm.trans h
  obtain ⟨q₀, hq', h⟩ := panics_bind_ok h
  obtain ⟨q', hq0, h⟩ := panics_bind_ok h
  obtain ⟨qc, hqc, h⟩ := panics_bind_ok h
  obtain ⟨_, s4, hwp, h⟩ := bind_ok h
  obtain ⟨x₃, s5, hx3, h⟩ := bind_ok h
  obtain ⟨_, s6, hws, h⟩ := bind_ok h
  obtain ⟨x₄, s7, hx4, h⟩ := bind_ok h
  obtain ⟨pb, hpb, h⟩ := panics_bind_ok h
  obtain ⟨xi, z, us, hus, htr, hipa⟩ := ipa_hiding ht hpr hw hw0 h
  refine ⟨x₁, x₂, x₃, x₄, xi, z, us, hus, ?_, ?_⟩
  · rw [htr, squeeze_ok hx4, mapM_writeScalar_ok _ _ _ _ _ hws, squeeze_ok hx3, writePoint_ok hwp,
      squeeze_ok hx2, squeeze_ok hx1]
  intro hxi hun hnot mem2 hmem2 hagg
  obtain ⟨data2, hd2, hdl2, hdd⟩ := acc_slots ht pr hn mem2 x₁ hidx hG.used (by
    intro cd hcd
    obtain ⟨q, h1, h2⟩ := hq cd hcd
    rw [← h2]; exact (hmem2 q h1).1)
  -- the slots of both runs
  obtain ⟨l, hll, hl⟩ : ∃ l : List (List F × (List F × F) × (List F × F)), l = ps.zip (data.zip data2) ∧
      ∀ t ∈ l, Twin pr x₃ t.1 t.2.1 t.2.2 := by
    refine ⟨_, rfl, fun t htm => ?_⟩
    obtain ⟨s, hs, rfl⟩ := List.mem_iff_getElem.1 htm
    simp only [List.length_zip] at hs
    have hs1 : s < data.length := by omega
    have hs2 : s < data2.length := by omega
    have hs0 : s < ps.length := by omega
    simp only [List.getElem_zip]
    obtain ⟨a1, a2, a3⟩ := hd s hs1
    obtain ⟨b1, b2, b3⟩ := hdd s hs2
    have hfil : ∀ cd ∈ cds.filter (fun cd => cd.setIndex = s), cd ∈ cds ∧ cd.setIndex = s := by
      intro cd hcd
      have := List.mem_filter.1 hcd
      exact ⟨this.1, by simpa using this.2⟩
    obtain ⟨cd0, hcd0, hs3⟩ := hG.used s hs0
    have hgrp : ∀ cd ∈ cds, cd.setIndex = s → ps[s].Nodup ∧
        ∀ x, x ∈ ps[s] ↔ ∃ q ∈ queries, q.commitment = cd.commitment ∧ q.point = x := by
      intro cd hcd hs
      obtain ⟨pts, g1, g2, g3, -⟩ := hG.group cd hcd
      rw [hs, List.getElem?_eq_getElem hs0] at g1
      cases g1
      exact ⟨g2, g3⟩
    refine ⟨a1, b1, ?_, (hgrp cd0 hcd0 hs3).1, ?_, ?_, ?_⟩
    · rw [a3, b3]
      apply horner_congr
      intro cd hcd
      obtain ⟨q, h1, h2⟩ := hq cd (hfil cd hcd).1
      rw [← h2]; exact (hmem2 q h1).2.1
    · intro hx
      obtain ⟨q, h1, -, h2⟩ := ((hgrp cd0 hcd0 hs3).2 x₃).1 hx
      exact hnot q h1 h2
    · intro x hx
      rw [a2, b2]
      apply horner_congr
      intro cd hcd
      obtain ⟨q, h1, h2, h3⟩ := ((hgrp cd (hfil cd hcd).1 (hfil cd hcd).2).2 x).1 hx
      rw [← h2, ← h3]; exact (hmem2 q h1).2.2
    · rw [a2, b2]
      exact hagg cds ps hcons s
  have hz : ∀ {B : Type} (f : List F × F → B), ps.zip (data.map f) = l.map fun t => (t.1, f t.2.1) := by
    intro B f
    subst hll
    apply List.ext_getElem
    · simp; omega
    · intro i h1 h2; simp
  have hz2 : ∀ {B : Type} (f : List F × F → B), ps.zip (data2.map f) = l.map fun t => (t.1, f t.2.2) := by
    intro B f
    subst hll
    apply List.ext_getElem
    · simp; omega
    · intro i h1 h2; simp
  have hm : ∀ {B : Type} (f : List F × F → B), data.map f = l.map fun t => f t.2.1 := by
    intro B f
    subst hll
    apply List.ext_getElem
    · simp; omega
    · intro i h1 h2; simp
  have hm2 : ∀ {B : Type} (f : List F × F → B), data2.map f = l.map fun t => f t.2.2 := by
    intro B f
    subst hll
    apply List.ext_getElem
    · simp; omega
    · intro i h1 h2; simp
  rw [hz, hq0] at hq'
  obtain ⟨q2, hq2, e1, e2, e3, e4⟩ := qPrime_twin ht hn x₂ x₃ l hl none none _ (by simp) (by simp) rfl
    rfl hq'
  obtain ⟨q2, rfl⟩ : ∃ q, q2 = some q := Option.isSome_iff_exists.1 e3.symm
  have hq'l := e1 _ rfl
  have hq2l := e2 _ rfl
  obtain ⟨qBlind2, hqb⟩ := hw (qc - dot q2 pr.g)
  have hqc2 : pr.commit q2 qBlind2 = some qc := by
    rw [commit_eq _ _ (by rw [hq2l, hpr.g_len]), hqb]
    congr 1; abel
  rw [commit_eq _ _ (by rw [hq'l, hpr.g_len])] at hqc
  rw [List.map_map, List.zip_map', hm] at hpb
  obtain ⟨r2, hr2, f1, f2, f3, f4⟩ := final_twin ht hn x₃ x₄ l hl q' q2 qBlind qBlind2 _ hq'l hq2l (by
    rw [commit_eq _ _ (by rw [hq2l, hpr.g_len])] at hqc2
    simp only [commitOf]
    exact (Option.some.inj hqc2).trans (Option.some.inj hqc).symm) e4 hpb
  obtain ⟨rand2, hrun⟩ := hipa hxi hun r2.1 r2.2 (by
    rw [commit_eq r2.1 _ (by rw [f2, hpr.g_len]), commit_eq pb.1 _ (by rw [f1, hpr.g_len])]
    exact congrArg some f3) f4
  refine ⟨qBlind2, rand2, ?_⟩
  unfold Multiopen.createProof
  refine ok_bind hx1 (ok_bind hx2 ?_)
  rw [hcons]
  refine ok_bind (a := (cds, ps)) rfl ?_
  dsimp only
  refine ok_bind (ok_panics hd2 _) (ok_bind (ok_panics (mapM_some_fst _) _) ?_)
  rw [hz2]
  refine ok_bind (ok_panics hq2 _) (ok_bind (ok_panics rfl _) (ok_bind (ok_panics hqc2 _)
    (ok_bind hwp (ok_bind hx3 ?_))))
  have hws2 : (data2.map Prod.fst).mapM (fun q => W.writeScalar e (evalPolynomial q x₃)) =
      (data.map Prod.fst).mapM (fun q => W.writeScalar e (evalPolynomial q x₃)) := by
    rw [hm, hm2]
    clear * - hl
    induction l with
    | nil => rfl
    | cons t l ih =>
      rw [List.map_cons, List.map_cons, List.mapM_cons, List.mapM_cons, ih fun t ht => hl t (by simp [ht]),
        (hl t (by simp)).eval₃]
  rw [hws2]
  refine ok_bind hws (ok_bind hx4 ?_)
  rw [List.map_map, List.zip_map', hm2]
  exact ok_bind (ok_panics hr2 _) hrun

section Example

open Verif.Toy

/-- Other polynomials with the same commitments and the same values at 10 and 11 (polynomial 0) and
at 10 (polynomial 1), and at the challenge 76. -/
def exMem2 : Fin 2 → List G × G := fun i =>
  if i = 0 then ([80, 59, 3, 5], 82) else ([85, 14, 3, 1], 44)

/-- The hypotheses of `multiopen_hiding` hold here: the proof written for `exMem` is also written
for the different polynomials `exMem2`. -/
example : ∃ st', Multiopen.createProof 2 (enc sumHash uniform) exParams exMem 3
      ⟨fun i => i, 1, fun _ => (3, 1)⟩ exQueries W.init = .ok ((), st') ∧
    ∃ qBlind2 rand2, Multiopen.createProof 2 (enc sumHash uniform) exParams exMem2 qBlind2 rand2
      exQueries W.init = .ok ((), st') := by
  have h : (Multiopen.createProof 2 (enc sumHash uniform) exParams exMem 3
      ⟨fun i => i, 1, fun _ => (3, 1)⟩ exQueries W.init).toOption.map (fun r => r.2.trace)
      = some [6, 56, 57, 82, 6, 76, 10, 5] := by decide +kernel
  rcases hc : Multiopen.createProof 2 (enc sumHash uniform) exParams exMem 3
      ⟨fun i => i, 1, fun _ => (3, 1)⟩ exQueries W.init with err | ⟨u, st'⟩
  · rw [hc] at h; cases h
  · rw [hc] at h
    refine ⟨st', rfl, ?_⟩
    have htr : st'.trace = [6, 56, 57, 82, 6, 76, 10, 5] := Option.some.inj h
    obtain ⟨x₁, x₂, x₃, x₄, xi, z, us, h1, h2, h3⟩ := multiopen_hiding (by decide : 2 ≠ 0)
      (pr := exParams) ⟨rfl, rfl⟩ (fun a => ⟨a * 39, by
        have : (39 : G) * 5 = 1 := by decide
        show a * 39 * 5 = a
        rw [mul_assoc, this, mul_one]⟩) (by decide) (mem := exMem) (by decide) hc
    rcases us with _ | ⟨u1, _ | ⟨u2, _ | ⟨u3, us⟩⟩⟩ <;> simp only [List.length_cons, List.length_nil, exParams] at h1
    · omega
    · omega
    · rw [htr] at h2
      simp only [List.reverse_cons, List.reverse_nil, List.nil_append, List.cons_append, W.init,
        List.cons.injEq, and_true] at h2
      obtain ⟨rfl, rfl, rfl, rfl, rfl, rfl, rfl, rfl⟩ := h2
      refine h3 (by decide) (by decide +kernel) (by decide) exMem2 ?_ ?_
      · decide +kernel
      · intro cds ps _ s
        refine horner_congr _ _ _ _ fun cd _ => ?_
        have : ∀ c : Fin 2, evalPolynomial (exMem2 c).1 76 = evalPolynomial (exMem c).1 76 := by
          decide +kernel
        exact this cd.commitment
    · omega

end Example

end Verif.Hiding
