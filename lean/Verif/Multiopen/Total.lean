import Verif.Multiopen.Props

/-!
# When the multipoint opening fails
-/

namespace Verif.Multiopen

open Verif.Msm Verif.Transcript Verif.Multicore Verif.PolyArith Verif.Vanishing Verif.Ipa Polynomial

variable {F K A ι : Type} [Field F] [DecidableEq F] [Field K] [LinearOrder K] [AddCommGroup A]
  [Module F A] [DecidableEq ι]

omit [DecidableEq F] in
/-- Dividing by as many points as there are coefficients does not fail. -/
theorem kate_total (pts : List F) (Q : List F) (h : pts.length ≤ Q.length) :
    ∃ quot, pts.foldlM (fun (poly : List F) point => kateDivision poly point) Q = some quot := by
  induction pts generalizing Q with
  | nil => exact ⟨Q, rfl⟩
  | cons p pts ih =>
    rw [List.foldlM_cons]
    rcases hk : kateDivision Q p with _ | q
    · rw [(kateDivision_panics _ _).1 hk] at h
      simp at h
    · have := (kateDivision_spec _ _ _ hk).1
      obtain ⟨quot, hq⟩ := ih q (by simp at h; omega)
      exact ⟨quot, hq⟩

theorem qPrime_total (threads : ℕ) (ht : threads ≠ 0) {n : ℕ} (hn : 0 < n) (x₂ : F)
    (data : List (List F × List F))
    (hd : ∀ q ∈ data, q.1.length ≤ n ∧ q.2.length = n)
    (acc : Option (List F)) (hacc : ∀ q, acc = some q → q.length = n) :
    ∃ q', data.foldlM (qPrime threads n x₂) acc = some q' ∧
      (data ≠ [] ∨ acc ≠ none → ∃ q, q' = some q ∧ q.length = n) := by
  induction data generalizing acc with
  | nil =>
    refine ⟨acc, rfl, fun h => ?_⟩
    rcases h with h | h
    · exact absurd rfl h
    · obtain ⟨q, rfl⟩ := Option.ne_none_iff_exists'.1 h
      exact ⟨q, rfl, hacc q rfl⟩
  | cons p data ih =>
    obtain ⟨h1, h2⟩ := hd p (by simp)
    obtain ⟨quot, hq⟩ := kate_total p.1 p.2 (by omega)
    obtain ⟨hql, -⟩ := kate_fold _ _ _ hq
    have hpl : (quot.take n ++ List.replicate (n - quot.length) 0).length = n := by
      simp; omega
    obtain ⟨q₁, h3, h4⟩ : ∃ q₁, qPrime threads n x₂ acc p = some (some q₁) ∧ q₁.length = n := by
      unfold qPrime
      rw [hq, Option.bind_some]
      dsimp only
      cases acc with
      | none => exact ⟨_, rfl, hpl⟩
      | some q =>
        have hq' := hacc q rfl
        have hqn : q ≠ [] := by intro h; rw [h] at hq'; simp at hq'; omega
        simp only [polyMul_eq threads ht q hqn x₂, Option.bind_some]
        rw [polyAdd_eq threads ht _ _ (by simpa using hqn) (by rw [hpl]; simp [hq'])]
        exact ⟨_, rfl, by rw [List.length_zipWith, hpl]; simp [hq']⟩
    obtain ⟨q', h5, h6⟩ := ih (fun q hq => hd q (by simp [hq])) (some q₁)
      (fun q hq => by cases hq; exact h4)
    refine ⟨q', ?_, fun _ => h6 (Or.inr (by simp))⟩
    rw [List.foldlM_cons, h3]
    exact h5

omit [DecidableEq F] in
theorem final_total (threads : ℕ) (ht : threads ≠ 0) {n : ℕ} (hn : 0 < n) (x₄ : F)
    (data : List (List F × F)) (hd : ∀ q ∈ data, q.1.length = n) (p : List F) (b : F)
    (hp : p.length = n) :
    ∃ r, data.foldlM (fun (st : List F × F) pb =>
        ((polyMul threads st.1 x₄).bind fun q => polyAdd threads q pb.1).map
          fun q => (q, st.2 * x₄ + pb.2)) (p, b) = some r ∧ r.1.length = n := by
  induction data generalizing p b with
  | nil => exact ⟨_, rfl, hp⟩
  | cons q data ih =>
    have hpn : p ≠ [] := by intro h; rw [h] at hp; simp at hp; omega
    have hq := hd q (by simp)
    rw [List.foldlM_cons]
    dsimp only
    rw [polyMul_eq threads ht p hpn x₄, Option.bind_some,
      polyAdd_eq threads ht _ _ (by simpa using hpn) (by simp [hp, hq])]
    exact ih (fun q hq => hd q (by simp [hq])) _ _ (by simp [hp, hq])

theorem Io.mapM {α β : Type} (f : α → W F β) (l : List α) (h : ∀ a ∈ l, Io (f a) fun _ => True) :
    Io (l.mapM f) fun _ => True := by
  induction l with
  | nil => exact Io.pure _ _ trivial
  | cons a l ih =>
    rw [List.mapM_cons]
    exact (h a (by simp)).bind fun _ _ => (ih fun b hb => h b (by simp [hb])).bind fun _ _ =>
      Io.pure _ _ trivial

omit [DecidableEq F] in
/-- Distinct points with the same `n`-th power are at most `n`. -/
theorem points_le {n : ℕ} (hn : 0 < n) (c : F) (pts : List F) (hnd : pts.Nodup)
    (h : ∀ x ∈ pts, x ^ n = c) : pts.length ≤ n := by
  classical
  rw [← List.toFinset_card_of_nodup hnd]
  refine (Finset.card_le_card (t := (nthRoots n c).toFinset) ?_).trans
    ((Multiset.toFinset_card_le _).trans (card_nthRoots n c))
  intro x hx
  rw [Multiset.mem_toFinset, mem_nthRoots hn]
  exact h x (List.mem_toFinset.1 hx)

/-- The multipoint opening of polynomials of `n` coefficients at points with the same `n`-th
power only fails with an io error. -/
theorem createProof_io (threads : ℕ) (ht : threads ≠ 0) {e : Enc F K A}
    (he : e.Valid) (h0 : ∀ bs, e.fromUniform bs ≠ 0) (pr : Params A) (hpr : ParamsOk pr)
    (mem : ι → List F × F) (qBlind : F) (rand : Random F) (queries : List (Query F ι Unit))
    (hne : queries ≠ []) (hlen : ∀ q ∈ queries, (mem q.commitment).1.length = pr.n) (c : F)
    (hpt : ∀ q ∈ queries, q.point ^ pr.n = c) :
    Io (createProof threads e pr mem qBlind rand queries) fun _ => True := by
  have hn : 0 < pr.n := hpr.ok.pos
  unfold createProof
  refine (Io.squeeze he).bind fun x₁ _ => (Io.squeeze he).bind fun x₂ _ => ?_
  by_cases hnd : (queries.map fun q => (q.commitment, q.point)).Nodup
  swap
  · rw [construct_eq, if_neg hnd]
    exact fun _ => rfl
  rw [construct_eq, if_pos hnd]
  obtain ⟨data, hd1, -, hd3, -, hd5⟩ := slots he.coords_valid threads ht pr hn mem
    (fun c => (.commitment (commitOf pr (mem c)) : Commitment F K A)) x₁ queries
    (queries.map fun q => ⟨q.point, q.commitment, evalPolynomial (mem q.commitment).1 q.point⟩)
    (by simp [Function.comp_def]) hlen
    (by
      intro q hq
      exact rfl)
    (by
      intro q hq
      obtain ⟨q', hq', rfl⟩ := List.mem_map.1 hq
      rfl)
  rw [hd1]
  refine (Io.pure _ (fun a => a = ((commitmentsOf queries).map (cdOf queries),
    data.map Slot.pts)) rfl).bind ?_
  rintro _ rfl
  dsimp only
  have hdne : data ≠ [] := by
    rintro rfl
    obtain ⟨q, qs, rfl⟩ := List.exists_cons_of_ne_nil hne
    have h1 : setsOf (q :: qs) = [] := by simpa using hd1
    have h2 := mem_setsOf (q :: qs) q.commitment ((mem_firsts _ _).2 (by simp))
    rw [h1] at h2
    simp at h2
  refine (Io.panics hd3).bind ?_
  rintro _ rfl
  have hqp : (data.map fun d => (some d.Q, d.b)).mapM (fun q : Option (List F) × F => q.1)
      = some (data.map Slot.Q) := by
    clear hd1 hd3 hd5 hdne
    induction data with
    | nil => rfl
    | cons d data ih => rw [List.map_cons, List.mapM_cons, ih]; rfl
  refine (Io.panics hqp).bind ?_
  rintro _ rfl
  rw [List.zip_map']
  obtain ⟨q', hq1, hq2⟩ := qPrime_total threads ht hn x₂ (data.map fun d => (d.pts, d.Q))
    (by
      intro q hq
      obtain ⟨d, hd, rfl⟩ := List.mem_map.1 hq
      refine ⟨points_le hn c _ (hd5 d hd).1.nodup fun x hx => ?_, (hd5 d hd).1.len⟩
      obtain ⟨q, hq, rfl⟩ := (hd5 d hd).2 x hx
      exact hpt q hq) none (fun _ h => by cases h)
  obtain ⟨q, rfl, hql⟩ := hq2 (Or.inl (by simpa using hdne))
  refine (Io.panics hq1).bind ?_
  rintro _ rfl
  refine (Io.panics (a := q) rfl).bind fun q'' hq'' => ?_
  subst q''
  have hcom : ∃ c, pr.commit q qBlind = some c := by
    unfold Params.commit
    rw [Commitment.multiexp_append, if_pos (by rw [hql, hpr.g_len])]
    exact ⟨_, rfl⟩
  obtain ⟨c, hc⟩ := hcom
  refine (Io.panics hc).bind fun _ _ => (Io.writePoint _ _).bind fun _ _ =>
    (Io.squeeze he).bind fun x₃ _ =>
    (Io.mapM _ _ fun _ _ => Io.writeScalar _ _).bind fun _ _ =>
    (Io.squeeze he).bind fun x₄ _ => ?_
  rw [List.map_map, List.zip_map']
  obtain ⟨r, hr1, hr2⟩ := final_total threads ht hn x₄ (data.map fun d => (d.Q, d.b))
    (by
      intro q hq
      obtain ⟨d, hd, rfl⟩ := List.mem_map.1 hq
      exact (hd5 d hd).1.len) q qBlind hql
  refine (Io.panics hr1).bind ?_
  rintro _ rfl
  exact Ipa.createProof_io threads ht he h0 pr hpr rand _ hr2 _ _

end Verif.Multiopen
