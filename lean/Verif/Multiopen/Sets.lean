import Verif.Multiopen.Model
import Mathlib.Data.List.Nodup
import Mathlib.Data.List.GetD

/-!
# What `construct_intermediate_sets` computes
-/

namespace Verif.Multiopen

open Verif.Transcript

variable {F ι ε : Type} [DecidableEq F] [DecidableEq ι]

/-! ## Insertion in order of first appearance -/

section Firsts

variable {α β : Type} [DecidableEq α] [DecidableEq β]

def firsts (l : List α) : List α := l.foldl insertNew []

theorem firsts_snoc (l : List α) (x : α) : firsts (l ++ [x]) = insertNew (firsts l) x := by
  simp [firsts, List.foldl_append]

theorem mem_firsts (l : List α) (x : α) : x ∈ firsts l ↔ x ∈ l := by
  induction l using List.reverseRecOn with
  | nil => simp [firsts]
  | append_singleton l a ih =>
    rw [firsts_snoc]
    unfold insertNew
    split_ifs with h
    · rw [ih, List.mem_append]
      constructor
      · exact Or.inl
      · rintro (h' | h')
        · exact h'
        · rw [List.mem_singleton] at h'; subst h'; exact ih' l x h
    · simp [ih]
where
  ih' (l : List α) (x : α) (h : x ∈ firsts l) : x ∈ l := by
    induction l using List.reverseRecOn with
    | nil => simp [firsts] at h
    | append_singleton l a ih =>
      rw [firsts_snoc] at h
      unfold insertNew at h
      split_ifs at h with h1
      · exact List.mem_append_left _ (ih h)
      · rcases List.mem_append.1 h with h | h
        · exact List.mem_append_left _ (ih h)
        · exact List.mem_append_right _ h

theorem nodup_firsts (l : List α) : (firsts l).Nodup := by
  induction l using List.reverseRecOn with
  | nil => simp [firsts]
  | append_singleton l a ih =>
    rw [firsts_snoc]
    unfold insertNew
    split_ifs with h
    · exact ih
    · rw [List.nodup_append]
      refine ⟨ih, by simp, ?_⟩
      intro x hx y hy
      rw [List.mem_singleton] at hy
      subst hy
      rintro rfl
      exact h hx

/-- Positions do not change as more values come in. -/
theorem idxOf_insertNew (l : List α) (x y : α) (h : y ∈ l) : (insertNew l x).idxOf y = l.idxOf y := by
  unfold insertNew
  split_ifs
  · rfl
  · rw [List.idxOf_append_of_mem h]

end Firsts

/-! ## Sets of indices -/

theorem mem_setInsert (i j : ℕ) (s : List ℕ) : j ∈ setInsert i s ↔ j = i ∨ j ∈ s := by
  induction s with
  | nil => simp [setInsert]
  | cons a t ih =>
    unfold setInsert
    split_ifs with h1 h2
    · simp
    · subst h2; simp
    · simp only [List.mem_cons, ih]; tauto

theorem sorted_setInsert (i : ℕ) (s : List ℕ) (h : s.Pairwise (· < ·)) :
    (setInsert i s).Pairwise (· < ·) := by
  induction s with
  | nil => simp [setInsert]
  | cons a t ih =>
    rw [List.pairwise_cons] at h
    unfold setInsert
    split_ifs with h1 h2
    · refine List.pairwise_cons.2 ⟨?_, List.pairwise_cons.2 h⟩
      intro b hb
      rcases List.mem_cons.1 hb with rfl | hb
      · exact h1
      · exact h1.trans (h.1 b hb)
    · exact List.pairwise_cons.2 h
    · refine List.pairwise_cons.2 ⟨?_, ih h.2⟩
      intro b hb
      rcases (mem_setInsert i b t).1 hb with rfl | hb
      · omega
      · exact h.1 b hb

theorem mem_btreeSet (l : List ℕ) (j : ℕ) : j ∈ btreeSet l ↔ j ∈ l := by
  induction l using List.reverseRecOn with
  | nil => simp [btreeSet]
  | append_singleton l a ih =>
    unfold btreeSet at ih ⊢
    rw [List.foldl_append]
    simp only [List.foldl_cons, List.foldl_nil, mem_setInsert, ih, List.mem_append,
      List.mem_singleton]
    tauto

theorem sorted_btreeSet (l : List ℕ) : (btreeSet l).Pairwise (· < ·) := by
  induction l using List.reverseRecOn with
  | nil => simp [btreeSet]
  | append_singleton l a ih =>
    unfold btreeSet at ih ⊢
    rw [List.foldl_append]
    exact sorted_setInsert _ _ ih

theorem nodup_btreeSet (l : List ℕ) : (btreeSet l).Nodup :=
  (sorted_btreeSet l).imp fun h => Nat.ne_of_lt h

theorem btreeSet_ext (l l' : List ℕ) (h : ∀ j, j ∈ l ↔ j ∈ l') : btreeSet l = btreeSet l' := by
  refine List.Perm.eq_of_pairwise (le := (· < ·)) (fun a b _ _ h1 h2 => by omega)
    (sorted_btreeSet l) (sorted_btreeSet l') ?_
  rw [List.perm_ext_iff_of_nodup (nodup_btreeSet l) (nodup_btreeSet l')]
  intro j
  rw [mem_btreeSet, mem_btreeSet, h]

/-! ## The passes -/

/-- Points in order of first appearance. -/
def pointsOf (qs : List (Query F ι ε)) : List F := firsts (qs.map Query.point)

/-- Commitments in order of first appearance. -/
def commitmentsOf (qs : List (Query F ι ε)) : List ι := firsts (qs.map Query.commitment)

/-- Indices of the points a commitment is queried at, in the order of the queries. -/
def indicesOf (qs : List (Query F ι ε)) (P : List F) (c : ι) : List ℕ :=
  (qs.filter fun q => q.commitment = c).map fun q => P.idxOf q.point

theorem pushIndex_map (c : ι) (idx : ℕ) (C : List ι) (hC : C.Nodup) (g : ι → List ℕ) :
    pushIndex c idx (C.map fun i => (i, g i))
      = (insertNew C c).map fun i => (i, if i = c then (if c ∈ C then g i else []) ++ [idx] else g i) := by
  induction C with
  | nil => simp [pushIndex, insertNew]
  | cons a C ih =>
    have hC' := List.nodup_cons.1 hC
    rw [List.map_cons, pushIndex]
    by_cases h : a = c
    · subst h
      rw [if_pos rfl, insertNew, if_pos (by simp), List.map_cons]
      simp only [if_true, List.mem_cons, true_or, List.cons.injEq, true_and]
      apply List.map_congr_left
      intro i hi
      rw [if_neg (by rintro rfl; exact hC'.1 hi)]
    · rw [if_neg h, ih hC'.2]
      unfold insertNew
      by_cases hc : c ∈ C
      · rw [if_pos hc, if_pos (by simp [hc])]
        simp [h, hc]
      · rw [if_neg hc, if_neg (by simp [hc, Ne.symm h])]
        simp [h, hc, Ne.symm h]

theorem pass1_eq (qs : List (Query F ι ε)) :
    pass1 qs = (pointsOf qs, (commitmentsOf qs).map fun c => (c, indicesOf qs (pointsOf qs) c)) := by
  induction qs using List.reverseRecOn with
  | nil => rfl
  | append_singleton qs q ih =>
    have hP : pointsOf (qs ++ [q]) = insertNew (pointsOf qs) q.point := by
      simp [pointsOf, firsts_snoc]
    have hC : commitmentsOf (qs ++ [q]) = insertNew (commitmentsOf qs) q.commitment := by
      simp [commitmentsOf, firsts_snoc]
    have hi : ∀ c, indicesOf (qs ++ [q]) (pointsOf (qs ++ [q])) c
        = indicesOf qs (pointsOf qs) c
          ++ if q.commitment = c then [(pointsOf (qs ++ [q])).idxOf q.point] else [] := by
      intro c
      unfold indicesOf
      rw [List.filter_append, List.map_append]
      congr 1
      · apply List.map_congr_left
        intro q' hq'
        rw [hP, idxOf_insertNew]
        exact (mem_firsts _ _).2 (List.mem_map_of_mem (List.mem_of_mem_filter hq'))
      · by_cases h : q.commitment = c <;> simp [h]
    have hstep : pass1 (qs ++ [q]) = (insertNew (pass1 qs).1 q.point,
        pushIndex q.commitment ((insertNew (pass1 qs).1 q.point).idxOf q.point) (pass1 qs).2) := by
      simp [pass1, List.foldl_append]
    rw [hstep, ih]
    dsimp only
    rw [← hP, pushIndex_map _ _ (commitmentsOf qs) (nodup_firsts _), hC]
    congr 1
    apply List.map_congr_left
    intro c hc
    rw [hi c]
    by_cases h : c = q.commitment
    · subst h
      simp only [if_true]
      split_ifs with hm
      · rfl
      · congr 2
        symm
        unfold indicesOf
        rw [List.filter_eq_nil_iff.2, List.map_nil]
        intro q' hq'
        simp only [decide_eq_true_eq]
        intro h
        exact hm ((mem_firsts _ _).2 (List.mem_map.2 ⟨q', hq', h⟩))
    · simp [h, Ne.symm h]

/-- The set of point indices of a commitment. -/
def setOf (qs : List (Query F ι ε)) (c : ι) : List ℕ :=
  btreeSet (indicesOf qs (pointsOf qs) c)

/-- The distinct sets, in order of first appearance. -/
def setsOf (qs : List (Query F ι ε)) : List (List ℕ) :=
  firsts ((commitmentsOf qs).map (setOf qs))

theorem pass2_eq (qs : List (Query F ι ε)) :
    pass2 (pass1 qs).2 = ((commitmentsOf qs).map fun c => (c, setOf qs c), setsOf qs) := by
  rw [pass1_eq]
  unfold pass2
  simp only [List.map_map, List.foldl_map, setsOf, firsts]
  rfl

/-- The evaluation recorded for a commitment at the point of the given index. -/
def evalAt (qs : List (Query F ι ε)) (P : List F) (c : ι) (i : ℕ) : Option ε :=
  (qs.find? fun q => q.commitment = c ∧ P.idxOf q.point = i).map Query.eval

/-- Entries after the queries `done` of `qs`. -/
def entryOf (qs done : List (Query F ι ε)) (c : ι) : Entry ι ε where
  commitment := c
  setIndex := if c ∈ done.map Query.commitment then (setsOf qs).idxOf (setOf qs c) else 0
  pointIndices := indicesOf qs (pointsOf qs) c
  evals := (setOf qs c).map (evalAt done (pointsOf qs) c)

theorem mem_setOf (qs : List (Query F ι ε)) (q : Query F ι ε) (hq : q ∈ qs) :
    (pointsOf qs).idxOf q.point ∈ setOf qs q.commitment := by
  unfold setOf
  rw [mem_btreeSet]
  exact List.mem_map.2 ⟨q, by simp [hq], rfl⟩

theorem mem_commitmentsOf (qs : List (Query F ι ε)) (q : Query F ι ε) (hq : q ∈ qs) :
    q.commitment ∈ commitmentsOf qs := (mem_firsts _ _).2 (List.mem_map_of_mem hq)

theorem mem_pointsOf (qs : List (Query F ι ε)) (q : Query F ι ε) (hq : q ∈ qs) :
    q.point ∈ pointsOf qs := (mem_firsts _ _).2 (List.mem_map_of_mem hq)

theorem mem_setsOf (qs : List (Query F ι ε)) (c : ι) (hc : c ∈ commitmentsOf qs) :
    setOf qs c ∈ setsOf qs := (mem_firsts _ _).2 (List.mem_map_of_mem hc)

theorem find_commitment (qs : List (Query F ι ε)) (C : List ι) (c : ι) (hc : c ∈ C) :
    (C.map fun c => (c, setOf qs c)).find? (fun p => p.1 = c) = some (c, setOf qs c) := by
  induction C with
  | nil => simp at hc
  | cons a C ih =>
    rw [List.map_cons, List.find?_cons]
    by_cases h : a = c
    · subst h; simp
    · simp only [h, decide_false]
      exact ih (by simpa [Ne.symm h] using hc)

/-- Whether a commitment has already been queried at a point. -/
theorem evalAt_isSome (qs done : List (Query F ι ε)) (hd : ∀ q ∈ done, q ∈ qs) (q : Query F ι ε)
    (hq : q ∈ qs) : (evalAt done (pointsOf qs) q.commitment ((pointsOf qs).idxOf q.point)).isSome ↔
      (q.commitment, q.point) ∈ done.map fun q => (q.commitment, q.point) := by
  unfold evalAt
  rw [Option.isSome_map, List.find?_isSome, List.mem_map]
  constructor
  · rintro ⟨q', h1, h2⟩
    simp only [decide_eq_true_eq] at h2
    refine ⟨q', h1, Prod.ext h2.1 ?_⟩
    exact (List.idxOf_inj (mem_pointsOf qs q' (hd q' h1))).1 h2.2
  · rintro ⟨q', h1, h2⟩
    have h3 := (Prod.mk.inj h2)
    exact ⟨q', h1, by simp [h3.1, h3.2]⟩

theorem entryOf_other (qs done : List (Query F ι ε)) (q : Query F ι ε) (c : ι)
    (h : c ≠ q.commitment) : entryOf qs (done ++ [q]) c = entryOf qs done c := by
  simp only [entryOf]
  congr 1
  · simp [h]
  · apply List.map_congr_left
    intro j _
    unfold evalAt
    rw [List.find?_append]
    simp [Ne.symm h]

theorem fill_eq (qs done : List (Query F ι ε)) (hd : ∀ q ∈ done, q ∈ qs) (q : Query F ι ε)
    (hq : q ∈ qs) (C : List ι) (hCn : C.Nodup) (hC : q.commitment ∈ C) :
    fill (pointsOf qs) ((commitmentsOf qs).map fun c => (c, setOf qs c)) (setsOf qs) q
      (C.map (entryOf qs done))
      = if (q.commitment, q.point) ∈ done.map fun q => (q.commitment, q.point) then .error .opening
        else .ok (C.map (entryOf qs (done ++ [q]))) := by
  induction C with
  | nil => simp at hC
  | cons a C ih =>
    have hn := List.nodup_cons.1 hCn
    rw [List.map_cons, fill]
    by_cases h : a = q.commitment
    · subst h
      have hset := mem_setOf qs q hq
      have hpos : (entryOf qs done q.commitment).evals[(setOf qs q.commitment).idxOf
          ((pointsOf qs).idxOf q.point)]?
          = some (evalAt done (pointsOf qs) q.commitment ((pointsOf qs).idxOf q.point)) := by
        simp only [entryOf, List.getElem?_map]
        rw [List.getElem?_eq_getElem (List.idxOf_lt_length_of_mem hset)]
        simp
      have hc : (entryOf qs done q.commitment).commitment = q.commitment := rfl
      rw [if_pos hc, find_commitment qs _ _ (mem_commitmentsOf qs q hq)]
      dsimp only
      rw [if_pos ⟨mem_pointsOf qs q hq, mem_setsOf qs _ (mem_commitmentsOf qs q hq)⟩, fillEntry,
        if_pos hset, hpos]
      have hiff := evalAt_isSome qs done hd q hq
      rcases hev : evalAt done (pointsOf qs) q.commitment ((pointsOf qs).idxOf q.point) with _ | v
      · rw [hev] at hiff
        rw [if_neg (by rw [← hiff]; simp)]
        change Except.ok (_ :: C.map (entryOf qs done)) = _
        congr 2
        · simp only [entryOf, List.map_append, List.map_cons, List.map_nil]
          congr 1
          · simp
          · apply List.ext_getElem (by simp)
            intro j h1 h2
            simp only [List.length_map, List.length_set] at h1
            rw [List.getElem_set]
            simp only [List.getElem_map]
            have hj : ((setOf qs q.commitment).idxOf ((pointsOf qs).idxOf q.point) = j)
                ↔ (pointsOf qs).idxOf q.point = (setOf qs q.commitment)[j] := by
              constructor
              · rintro rfl; simp
              · intro h; rw [h]; exact (nodup_btreeSet _).idxOf_getElem j h1
            by_cases h3 : (pointsOf qs).idxOf q.point = (setOf qs q.commitment)[j]
            · rw [if_pos (hj.2 h3), ← h3]
              unfold evalAt at hev ⊢
              rw [List.find?_append]
              rw [Option.map_eq_none_iff] at hev
              rw [hev]; simp
            · rw [if_neg (fun h => h3 (hj.1 h))]
              unfold evalAt
              rw [List.find?_append]
              simp [h3]
        · apply List.map_congr_left
          intro c hc
          rw [entryOf_other qs done q c (by rintro rfl; exact hn.1 hc)]
      · rw [hev] at hiff
        rw [if_pos (hiff.1 rfl)]
        rfl
    · have hc : (entryOf qs done a).commitment ≠ q.commitment := h
      rw [if_neg hc, ih hn.2 (by simpa [Ne.symm h] using hC)]
      split_ifs
      · rfl
      · rw [List.map_cons, entryOf_other qs done q a h]; rfl

theorem fills_eq (qs done rest : List (Query F ι ε)) (hqs : qs = done ++ rest)
    (hn : (done.map fun q => (q.commitment, q.point)).Nodup) :
    rest.foldlM (fun es q => fill (pointsOf qs) ((commitmentsOf qs).map fun c => (c, setOf qs c))
      (setsOf qs) q es) ((commitmentsOf qs).map (entryOf qs done))
      = if (qs.map fun q => (q.commitment, q.point)).Nodup then
          .ok ((commitmentsOf qs).map (entryOf qs qs))
        else .error .opening := by
  induction rest generalizing done with
  | nil =>
    rw [List.append_nil] at hqs
    subst hqs
    rw [if_pos hn]; rfl
  | cons q rest ih =>
    have hd : ∀ q' ∈ done, q' ∈ qs := fun q' h => by rw [hqs]; simp [h]
    have hq : q ∈ qs := by rw [hqs]; simp
    rw [List.foldlM_cons, fill_eq qs done hd q hq (commitmentsOf qs) (nodup_firsts _) (mem_commitmentsOf qs q hq)]
    by_cases h : (q.commitment, q.point) ∈ done.map fun q => (q.commitment, q.point)
    · rw [if_pos h, if_neg]
      · rfl
      · rw [hqs, List.map_append, List.nodup_append]
        rintro ⟨-, -, h3⟩
        exact h3 _ h _ (by simp) rfl
    · rw [if_neg h]
      refine ih (done ++ [q]) (by rw [hqs]; simp) ?_
      rw [List.map_append, List.nodup_append]
      refine ⟨hn, by simp, ?_⟩
      intro x hx y hy
      simp only [List.map_cons, List.map_nil, List.mem_singleton] at hy
      rintro rfl
      exact h (hy ▸ hx)

/-! ## The result -/

def cdOf (qs : List (Query F ι ε)) (c : ι) : CommitmentData ι ε where
  commitment := c
  setIndex := (setsOf qs).idxOf (setOf qs c)
  pointIndices := indicesOf qs (pointsOf qs) c
  evals := (setOf qs c).filterMap (evalAt qs (pointsOf qs) c)

def ptsOf (qs : List (Query F ι ε)) (set : List ℕ) : List F :=
  set.filterMap fun i => (pointsOf qs)[i]?

theorem mapM_filterMap {α β : Type} (f : α → Option β) (l : List α) (h : ∀ a ∈ l, (f a).isSome) :
    l.mapM f = some (l.filterMap f) := by
  induction l with
  | nil => rfl
  | cons a l ih =>
    obtain ⟨b, hb⟩ := Option.isSome_iff_exists.1 (h a (by simp))
    rw [List.mapM_cons, hb, ih fun a' h' => h a' (by simp [h'])]
    simp [hb]

theorem length_filterMap {α β : Type} (f : α → Option β) (l : List α)
    (h : ∀ a ∈ l, (f a).isSome) : (l.filterMap f).length = l.length ∧
      ∀ i : ℕ, (l.filterMap f)[i]? = l[i]?.bind f := by
  induction l with
  | nil => simp
  | cons a l ih =>
    obtain ⟨b, hb⟩ := Option.isSome_iff_exists.1 (h a (by simp))
    obtain ⟨h1, h2⟩ := ih fun a' h' => h a' (by simp [h'])
    rw [List.filterMap_cons_some hb]
    refine ⟨by simp [h1], fun i => ?_⟩
    cases i with
    | zero => simp [hb]
    | succ i => simp [h2]

theorem mem_set_query (qs : List (Query F ι ε)) (c : ι) (i : ℕ) (hi : i ∈ setOf qs c) :
    ∃ q ∈ qs, q.commitment = c ∧ (pointsOf qs).idxOf q.point = i := by
  unfold setOf at hi
  rw [mem_btreeSet] at hi
  obtain ⟨q, h1, h2⟩ := List.mem_map.1 hi
  have := List.mem_filter.1 h1
  exact ⟨q, this.1, by simpa using this.2, h2⟩

theorem evalAt_some (qs : List (Query F ι ε)) (c : ι) (i : ℕ) (hi : i ∈ setOf qs c) :
    (evalAt qs (pointsOf qs) c i).isSome := by
  obtain ⟨q, h1, h2, h3⟩ := mem_set_query qs c i hi
  unfold evalAt
  rw [Option.isSome_map, List.find?_isSome]
  exact ⟨q, h1, by simp [h2, h3]⟩

theorem pts_some (qs : List (Query F ι ε)) (set : List ℕ) (hs : set ∈ setsOf qs) :
    ∀ i ∈ set, ((pointsOf qs)[i]?).isSome := by
  intro i hi
  obtain ⟨c, -, rfl⟩ := List.mem_map.1 ((mem_firsts _ _).1 hs)
  obtain ⟨q, h1, -, rfl⟩ := mem_set_query qs c i hi
  rw [List.getElem?_eq_getElem (List.idxOf_lt_length_of_mem (mem_pointsOf qs q h1))]
  rfl

theorem construct_eq (qs : List (Query F ι ε)) :
    constructIntermediateSets qs
      = if (qs.map fun q => (q.commitment, q.point)).Nodup then
          .ok ((commitmentsOf qs).map (cdOf qs), (setsOf qs).map (ptsOf qs))
        else .error .opening := by
  unfold constructIntermediateSets
  dsimp only
  rw [pass2_eq, pass1_eq]
  have h0 : (((commitmentsOf qs).map fun c => (c, indicesOf qs (pointsOf qs) c)).map fun c =>
      ({ commitment := c.1, setIndex := 0, pointIndices := c.2
         evals := List.replicate (btreeSet c.2).length none } : Entry ι ε))
      = (commitmentsOf qs).map (entryOf qs []) := by
    rw [List.map_map]
    apply List.map_congr_left
    intro c _
    simp only [Function.comp, entryOf, setOf, evalAt]
    have hnil : evalAt ([] : List (Query F ι ε)) (pointsOf qs) c = fun _ => none := rfl
    simp [hnil]
  dsimp only
  rw [h0, fills_eq qs [] qs rfl (by simp)]
  split_ifs with hn
  · simp only [Except.bind]
    have h1 : ((commitmentsOf qs).map (entryOf qs qs)).mapM (fun (en : Entry ι ε) =>
        (en.evals.mapM id).map fun evals =>
        ({ commitment := en.commitment, setIndex := en.setIndex, pointIndices := en.pointIndices
           evals := evals } : CommitmentData ι ε)) = some ((commitmentsOf qs).map (cdOf qs)) := by
      rw [List.mapM_map]
      have : ∀ c ∈ commitmentsOf qs, ((((entryOf qs qs c).evals.mapM id).map fun evals =>
        ({ commitment := (entryOf qs qs c).commitment, setIndex := (entryOf qs qs c).setIndex,
           pointIndices := (entryOf qs qs c).pointIndices
           evals := evals } : CommitmentData ι ε))) = some (cdOf qs c) := by
        intro c hc
        have h2 : (entryOf qs qs c).evals.mapM id
            = some ((setOf qs c).filterMap (evalAt qs (pointsOf qs) c)) := by
          simp only [entryOf]
          rw [List.mapM_map]
          exact mapM_filterMap _ _ (evalAt_some qs c)
        rw [h2]
        simp only [Option.map_some, entryOf, cdOf]
        congr 2
        rw [if_pos ((mem_firsts _ _).1 hc)]
      generalize commitmentsOf qs = C at this
      induction C with
      | nil => rfl
      | cons a C ih =>
        rw [List.mapM_cons]
        simp only [Function.comp]
        rw [this a (by simp), ih fun c hc => this c (by simp [hc])]
        rfl
    have h2 : (setsOf qs).mapM (fun set => set.mapM fun i => (pointsOf qs)[i]?)
        = some ((setsOf qs).map (ptsOf qs)) := by
      have := pts_some qs
      generalize setsOf qs = S at this
      induction S with
      | nil => rfl
      | cons a S ih =>
        rw [List.mapM_cons, mapM_filterMap _ _ (this a (by simp)),
          ih fun s hs => this s (by simp [hs])]
        rfl
    rw [h1, h2]
    rfl
  · rfl

end Verif.Multiopen
