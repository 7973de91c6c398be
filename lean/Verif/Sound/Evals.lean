import Verif.Sound.Multiopen
import Verif.Protocol.Queries

/-!
# If every query of the verifier is right, the scalars read are the evaluations
-/

namespace Verif.Sound

open Verif.Cs (Cs)
open Verif.Domain (Domain)
open Verif.PolyArith Verif.Protocol Polynomial
open Verif.Plonk (CircuitProof CircuitEvals queryEvals circuitEvals)
open Verif.Multiopen (Query)

variable {F A : Type} [Field F]

/-- The coefficients of a represented polynomial. -/
noncomputable def coeffsOf (n : ℕ) (v : Comb F) : List F := (List.range n).map v.1.coeff

@[simp] theorem coeffsOf_length (n : ℕ) (v : Comb F) : (coeffsOf n v).length = n := by
  simp [coeffsOf]

theorem toPoly_coeffsOf {n : ℕ} {v : Comb F} (h : v.1.degree < n) :
    toPoly (coeffsOf n v) = v.1 := by
  ext i
  rw [coeff_toPoly, coeffsOf, List.getD_eq_getElem?_getD, List.getElem?_map]
  by_cases hi : i < n
  · rw [List.getElem?_range hi]; rfl
  · rw [List.getElem?_eq_none (by simpa using hi)]
    exact ((degree_lt_iff_coeff_zero _ _).1 h i (by omega)).symm

theorem eval_coeffsOf {n : ℕ} {v : Comb F} (h : v.1.degree < n) (x : F) :
    evalPolynomial (coeffsOf n v) x = v.1.eval x := by
  rw [evalPolynomial_eq, toPoly_coeffsOf h]

theorem mapM_of_forall₂ {α β : Type*} {f : α → Option β} {l : List α} {r : List β}
    (h : List.Forall₂ (fun a b => f a = some b) l r) : l.mapM f = some r := by
  induction h with
  | nil => rfl
  | cons h _ ih => rw [List.mapM_cons, h, ih]; rfl

theorem forall₂_of_get {α β : Type*} {P : α → β → Prop} {l : List α} {r : List β}
    (hl : l.length = r.length)
    (h : ∀ (i : ℕ) a b, l[i]? = some a → r[i]? = some b → P a b) : List.Forall₂ P l r := by
  rw [List.forall₂_iff_get]
  refine ⟨hl, fun i h1 h2 => h i _ _ ?_ ?_⟩
  · simp [List.getElem?_eq_getElem h1]
  · simp [List.getElem?_eq_getElem h2]

/-- The claim of a query holds. -/
def Right (P : Ptr → Comb F) (q : Query F Ptr F) : Prop :=
  (P q.commitment).1.eval q.point = q.eval

variable {d : Domain F} {cs : Cs F} {x : F} {P : Ptr → Comb F} {ρ : A → Comb F} {n : ℕ}

theorem columnQueries_right (hρ : ∀ p, (ρ p).1.degree < n) {ptr : ℕ → Ptr} {cms : List A}
    {evals : List F} {queries : List (ℕ × ℤ)} {qs : List (Query F Ptr F)}
    (h : columnQueries d x ptr cms evals queries = some qs) (hl : evals.length = queries.length)
    (hP : ∀ (c : ℕ) p, cms[c]? = some p → P (ptr c) = ρ p) (hr : ∀ q ∈ qs, Right P q) :
    queryEvals d x (cms.map fun p => coeffsOf n (ρ p)) queries = some evals := by
  refine mapM_of_forall₂ (forall₂_of_get hl.symm fun i q v hq hv => ?_)
  obtain ⟨qq, h1, h2⟩ := mapM_getElem? h i (q, i) (by
    rw [List.getElem?_zipIdx, hq]; simp)
  dsimp only at h1
  split_ifs at h1 with hc
  rw [hv, Option.map_some] at h1
  cases h1
  have := hr _ (List.mem_of_getElem? h2)
  unfold Right at this
  dsimp only at this
  rw [hP _ _ (List.getElem?_eq_getElem hc)] at this
  rw [List.getElem?_map, List.getElem?_eq_getElem hc, Option.map_some, Option.map_some,
    eval_coeffsOf (hρ _), this]

/-- What the verifier reads for the permutation: a last evaluation for all sets but the last. -/
def PermShape (evs : List (Verif.Permutation.SetEvals F)) : Prop :=
  ∀ (i : ℕ) ev, evs[i]? = some ev → (ev.last.isSome ↔ i + 1 < evs.length)

theorem permutationQueries_right (hρ : ∀ p, (ρ p).1.degree < n) {bf i : ℕ} {cms : List A}
    {evs : List (Verif.Permutation.SetEvals F)} {qs : List (Query F Ptr F)}
    (h : permutationQueries d bf x i evs = some qs) (hl : evs.length = cms.length)
    (hs : PermShape evs)
    (hP : ∀ (c : ℕ) p, cms[c]? = some p → P (.perm i c) = ρ p) (hr : ∀ q ∈ qs, Right P q) :
    evs = (cms.map fun p => coeffsOf n (ρ p)).mapIdx fun i z =>
      ⟨evalPolynomial z x, evalPolynomial z (d.rotateOmega x 1),
        if i + 1 < (cms.map fun p => coeffsOf n (ρ p)).length then
          some (evalPolynomial z (d.rotateOmega x (-((bf : ℤ) + 1)))) else none⟩ := by
  unfold permutationQueries at h
  obtain ⟨lasts, h1, rfl⟩ := Option.map_eq_some_iff.1 h
  refine List.ext_getElem (by simp [hl]) fun s h2 h3 => ?_
  have hs2 : s < cms.length := by omega
  have hz : (evs[s], s) ∈ evs.zipIdx := by
    rw [List.mem_zipIdx_iff_getElem?]; exact List.getElem?_eq_getElem h2
  have hp := hP s _ (List.getElem?_eq_getElem hs2)
  have r1 := hr ⟨x, .perm i s, evs[s].eval⟩ (List.mem_append_left _
    (List.mem_flatMap.2 ⟨_, hz, by simp⟩))
  have r2 := hr ⟨d.rotateOmega x 1, .perm i s, evs[s].next⟩ (List.mem_append_left _
    (List.mem_flatMap.2 ⟨_, hz, by simp⟩))
  have r3 : ∀ v, evs[s].last = some v →
      (ρ cms[s]).1.eval (d.rotateOmega x (-((bf : ℤ) + 1))) = v := by
    intro v hv
    have hlt := (hs s _ (List.getElem?_eq_getElem h2)).1 (by rw [hv]; rfl)
    have hm : (evs.zipIdx.reverse.drop 1)[evs.length - 2 - s]? = some (evs[s], s) := by
      rw [List.getElem?_drop, List.getElem?_reverse (by simp; omega), List.length_zipIdx,
        show evs.length - 1 - (1 + (evs.length - 2 - s)) = s by omega, List.getElem?_zipIdx,
        List.getElem?_eq_getElem h2]
      simp
    obtain ⟨q, h4, h5⟩ := mapM_getElem? h1 _ _ hm
    dsimp only at h4
    rw [hv, Option.map_some] at h4
    cases h4
    have := hr _ (List.mem_append_right _ (List.mem_of_getElem? h5))
    unfold Right at this
    dsimp only at this
    rwa [hp] at this
  unfold Right at r1 r2
  dsimp only at r1 r2
  rw [hp] at r1 r2
  have hlast := hs s _ (List.getElem?_eq_getElem h2)
  rw [List.getElem_mapIdx, List.getElem_map, eval_coeffsOf (hρ _), eval_coeffsOf (hρ _),
    eval_coeffsOf (hρ _), r1, r2]
  simp only [List.length_map]
  rcases hv : evs[s].last with _ | v
  · rw [hv] at hlast
    rw [if_neg (by rw [← hl]; intro h; simpa using hlast.2 h), ← hv]
  · rw [hv] at hlast
    rw [if_pos (by rw [← hl]; exact hlast.1 rfl), r3 v hv, ← hv]

theorem lookupQueries_right (hρ : ∀ p, (ρ p).1.degree < n) {i : ℕ} {cms : List (A × A × A)}
    {evs : List (Verif.Lookup.Evals F)} (hl : evs.length = cms.length)
    (hz : ∀ (c : ℕ) p, cms[c]? = some p → P (.lookupZ i c) = ρ p.1)
    (ha : ∀ (c : ℕ) p, cms[c]? = some p → P (.lookupA i c) = ρ p.2.1)
    (hs : ∀ (c : ℕ) p, cms[c]? = some p → P (.lookupS i c) = ρ p.2.2)
    (hr : ∀ q ∈ evs.zipIdx.flatMap (lookupQueries d x i), Right P q) :
    evs = (cms.map fun q => (coeffsOf n (ρ q.1), coeffsOf n (ρ q.2.1), coeffsOf n (ρ q.2.2))).map
      fun (q : List F × List F × List F) =>
      ⟨evalPolynomial q.1 x, evalPolynomial q.1 (d.rotateOmega x 1), evalPolynomial q.2.1 x,
        evalPolynomial q.2.1 (d.rotateOmega x (-1)), evalPolynomial q.2.2 x⟩ := by
  refine List.ext_getElem (by simp [hl]) fun s h2 h3 => ?_
  have hs2 : s < cms.length := by omega
  have hm : (evs[s], s) ∈ evs.zipIdx := by
    rw [List.mem_zipIdx_iff_getElem?]; exact List.getElem?_eq_getElem h2
  have hr' : ∀ q ∈ lookupQueries d x i (evs[s], s), Right P q := fun q hq =>
    hr q (List.mem_flatMap.2 ⟨_, hm, hq⟩)
  have hg := List.getElem?_eq_getElem hs2
  simp only [lookupQueries, List.mem_cons, List.not_mem_nil, or_false, forall_eq_or_imp, forall_eq,
    Right, hz s _ hg, ha s _ hg, hs s _ hg] at hr'
  obtain ⟨r1, r2, r3, r4, r5⟩ := hr'
  simp only [List.getElem_map, eval_coeffsOf (hρ _), r1, r2, r3, r4, r5]

/-- The polynomials represented by what was read for a circuit. -/
noncomputable def opened (n : ℕ) (ρ : A → Comb F) (o : Opens A) : CircuitProof F where
  advicePolys := o.advice.map fun p => coeffsOf n (ρ p)
  instPolys := o.inst.map fun p => coeffsOf n (ρ p)
  permutation := o.permutation.map fun p => coeffsOf n (ρ p)
  lookups := o.lookups.map fun q => (coeffsOf n (ρ q.1), coeffsOf n (ρ q.2.1), coeffsOf n (ρ q.2.2))

/-- The numbers of scalars read for a circuit. -/
structure EvalsShape (cs : Cs F) (o : Opens A) (ev : CircuitEvals F) : Prop where
  advice : ev.advice.length = cs.adviceQueries.length
  inst : ev.inst.length = cs.instanceQueries.length
  perm : ev.permutation.length = o.permutation.length
  permShape : PermShape ev.permutation
  lookups : ev.lookups.length = o.lookups.length

/-- What the pointers point to, represented. -/
noncomputable def derefRep (ρ : A → Comb F) (os : List (Opens A)) (fixed perm : List A) (h : Comb F)
    (random : A) : Ptr → Comb F :=
  deref 0 (os.map (Opens.map ρ)) (fixed.map ρ) (perm.map ρ) h (ρ random)

theorem circuitQueries_right (hρ : ∀ p, (ρ p).1.degree < n) {i : ℕ} {o : Opens A}
    {ev : CircuitEvals F} {qs : List (Query F Ptr F)} (h : circuitQueries d cs x o ev i = some qs)
    (hs : EvalsShape cs o ev) {os : List (Opens A)} (hi : os[i]? = some o) {fixed perm : List A}
    {hc : Comb F} {random : A}
    (hr : ∀ q ∈ qs, Right (derefRep ρ os fixed perm hc random) q) :
    circuitEvals d cs x (opened n ρ o) = some ev := by
  unfold circuitQueries at h
  obtain ⟨q1, h1, h⟩ := Option.bind_eq_some_iff.1 h
  obtain ⟨q2, h2, h⟩ := Option.bind_eq_some_iff.1 h
  obtain ⟨q3, h3, rfl⟩ := Option.map_eq_some_iff.1 h
  have hd : ∀ {Q : Type} (f : Opens (Comb F) → Option Q) (w : Q), f (o.map ρ) = some w →
      ((os.map (Opens.map ρ))[i]?).bind f = some w := by
    intro Q f w hw
    rw [List.getElem?_map, hi, Option.map_some, Option.bind_some, hw]
  have e1 := columnQueries_right (n := n) hρ h1 hs.inst (P := derefRep ρ os fixed perm hc random)
    (fun c p hp => by
      simp only [derefRep, deref]
      rw [hd (fun o => o.inst[c]?) (ρ p) (by simp [Opens.map, hp])]; rfl)
    fun q hq => hr q (by simp [hq])
  have e2 := columnQueries_right (n := n) hρ h2 hs.advice (P := derefRep ρ os fixed perm hc random)
    (fun c p hp => by
      simp only [derefRep, deref]
      rw [hd (fun o => o.advice[c]?) (ρ p) (by simp [Opens.map, hp])]; rfl)
    fun q hq => hr q (by simp [hq])
  have e3 := permutationQueries_right (n := n) hρ h3 hs.perm hs.permShape
    (P := derefRep ρ os fixed perm hc random)
    (fun c p hp => by
      simp only [derefRep, deref]
      rw [hd (fun o => o.permutation[c]?) (ρ p) (by simp [Opens.map, hp])]; rfl)
    fun q hq => hr q (by simp [hq])
  have e4 := lookupQueries_right (n := n) (i := i) (x := x) (d := d) hρ hs.lookups
    (P := derefRep ρ os fixed perm hc random)
    (fun c p hp => by
      simp only [derefRep, deref]
      rw [hd (fun o => (o.lookups[c]?).map fun q => q.1) (ρ p.1) (by simp [Opens.map, hp])]; rfl)
    (fun c p hp => by
      simp only [derefRep, deref]
      rw [hd (fun o => (o.lookups[c]?).map fun q => q.2.1) (ρ p.2.1) (by simp [Opens.map, hp])]; rfl)
    (fun c p hp => by
      simp only [derefRep, deref]
      rw [hd (fun o => (o.lookups[c]?).map fun q => q.2.2) (ρ p.2.2) (by simp [Opens.map, hp])]; rfl)
    fun q hq => hr q (by simp only [List.mem_append]; exact Or.inr hq)
  unfold circuitEvals opened
  dsimp only
  rw [e1, Option.bind_some, e2, Option.map_some]
  congr 1
  rw [← e3, ← e4]

/-- All queries right: the scalars read are the evaluations of the represented polynomials. -/
theorem verifierQueries_right (hρ : ∀ p, (ρ p).1.degree < n) {vk : Vk F A} {os : List (Opens A)}
    {evs : List (CircuitEvals F)} {fe pe : List F} {hE rE : F} {qs : List (Query F Ptr F)}
    (h : verifierQueries d cs x vk os evs fe pe hE rE = some qs)
    (hs : List.Forall₂ (EvalsShape cs) os evs) (hfe : fe.length = cs.fixedQueries.length)
    (hpe : pe.length = vk.permCommitments.length) {hc : Comb F} {random : A}
    (hr : ∀ q ∈ qs, Right (derefRep ρ os vk.fixedCommitments vk.permCommitments hc random) q) :
    queryEvals d x (vk.fixedCommitments.map fun p => coeffsOf n (ρ p)) cs.fixedQueries = some fe ∧
    (os.map (opened n ρ)).mapM (circuitEvals d cs x) = some evs ∧
    pe = (vk.permCommitments.map fun p => coeffsOf n (ρ p)).map (fun p => evalPolynomial p x) ∧
    hc.1.eval x = hE := by
  unfold verifierQueries at h
  obtain ⟨q1, h1, h⟩ := Option.bind_eq_some_iff.1 h
  obtain ⟨q2, h2, rfl⟩ := Option.map_eq_some_iff.1 h
  refine ⟨?_, ?_, ?_, ?_⟩
  · refine columnQueries_right hρ h2 hfe (P := derefRep ρ os vk.fixedCommitments
      vk.permCommitments hc random) (fun c p hp => ?_) fun q hq => hr q (by simp [hq])
    simp [derefRep, deref, hp]
  · rw [Verif.Plonk.mapM_map']
    refine mapM_of_forall₂ (forall₂_of_get hs.length_eq fun i o ev ho hev => ?_)
    obtain ⟨qs, h3, h4⟩ := mapM_getElem? h1 i ((o, ev), i) (by
      rw [List.getElem?_zipIdx, List.getElem?_zip_eq_some (z := (o, ev)).2 ⟨ho, hev⟩]; simp)
    refine circuitQueries_right hρ h3 ?_ ho (fixed := vk.fixedCommitments)
      (perm := vk.permCommitments) (hc := hc) (random := random) fun q hq => hr q ?_
    · have := List.forall₂_iff_get.1 hs
      obtain ⟨hi1, rfl⟩ := List.getElem?_eq_some_iff.1 ho
      obtain ⟨hi2, rfl⟩ := List.getElem?_eq_some_iff.1 hev
      exact this.2 i hi1 hi2
    · simp only [List.mem_append]
      exact Or.inl (Or.inl (Or.inl (List.mem_flatten.2 ⟨_, List.mem_of_getElem? h4, hq⟩)))
  · refine List.ext_getElem (by simp [hpe]) fun i h3 h4 => ?_
    have hi : i < vk.permCommitments.length := by omega
    have := hr ⟨x, .permCommon i, pe[i]⟩ (by
      simp only [List.mem_append]
      refine Or.inl (Or.inr (List.mem_map.2 ⟨((vk.permCommitments[i], pe[i]), i), ?_, rfl⟩))
      rw [List.mem_zipIdx_iff_getElem?]
      exact List.getElem?_zip_eq_some.2 ⟨List.getElem?_eq_getElem hi, List.getElem?_eq_getElem h3⟩)
    unfold Right at this
    simp only [derefRep, deref] at this
    rw [List.getD_eq_getElem?_getD, List.getElem?_map, List.getElem?_eq_getElem hi] at this
    rw [List.getElem_map, List.getElem_map, eval_coeffsOf (hρ _)]
    exact this.symm
  · exact hr ⟨x, .h, hE⟩ (by simp)

end Verif.Sound
