import Verif.Copy.Lemmas

/-!
# C13: copy constraints

Specification: `Requested calls a b`: a call of the sequence names the cells `a` and `b`, its
columns being in the permutation and its rows below `n`.  The cells linked by the calls are
the classes of the equivalence generated by it.
-/

namespace Verif.Copy

open Equiv

variable {Col : Type*} [DecidableEq Col] {columns : List Col} {n : ℕ}

/-- Specification: `c` names the cell with column `col` (its first position) and row `row`. -/
def Names (columns : List Col) (n : ℕ) (col : Col) (row : ℕ) (c : Cell columns n) : Prop :=
  columns[c.1] = col ∧ (∀ j < c.1, columns[j] ≠ col) ∧ (c.2 : ℕ) = row

/-- Specification: some call of the sequence asks for `a = b`. -/
def Requested (calls : List (Call Col)) (a b : Cell columns n) : Prop :=
  ∃ c ∈ calls, Names columns n c.leftColumn c.leftRow a ∧
    Names columns n c.rightColumn c.rightRow b

theorem position_some {c : Col} {i : Fin columns.length} (h : position columns c = some i) :
    columns[i] = c ∧ ∀ j < i, columns[j] ≠ c := by
  unfold position at h
  obtain ⟨h1, h2⟩ := List.find?_eq_some_iff_getElem.1 h
  obtain ⟨m, hm, h3, h4⟩ := h2
  refine ⟨by simpa using h1, ?_⟩
  intro j hj
  have hmi : m = i := by simpa using congrArg Fin.val h3
  have := h4 j (by omega)
  simpa using this

theorem position_none {c : Col} (h : position columns c = none) : c ∉ columns := by
  unfold position at h
  rw [List.find?_eq_none] at h
  intro hc
  obtain ⟨i, hi, he⟩ := List.getElem_of_mem hc
  have := h ⟨i, hi⟩ (List.mem_finRange _)
  simp [he] at this

theorem names_unique {col : Col} {row : ℕ} {a b : Cell columns n} (ha : Names columns n col row a)
    (hb : Names columns n col row b) : a = b := by
  obtain ⟨ha1, ha2, ha3⟩ := ha
  obtain ⟨hb1, hb2, hb3⟩ := hb
  refine Prod.ext ?_ (Fin.ext (ha3.trans hb3.symm))
  rcases lt_trichotomy a.1 b.1 with h | h | h
  · exact absurd ha1 (hb2 _ h)
  · exact h
  · exact absurd hb1 (ha2 _ h)

/-- The invariant: the mapping is a permutation, and labels tell its cycles apart. -/
structure Inv (s : Assembly columns n) (σ : Perm (Cell columns n)) : Prop where
  mapping : s.mapping = σ
  label : ∀ a, σ.SameCycle a (s.aux a)
  same : ∀ a b, σ.SameCycle a b → s.aux a = s.aux b

theorem Inv.aux_iff {s : Assembly columns n} {σ : Perm (Cell columns n)} (h : Inv s σ)
    (a b : Cell columns n) : s.aux a = s.aux b ↔ σ.SameCycle a b := by
  constructor
  · intro he
    exact (h.label a).trans (he ▸ (h.label b).symm)
  · exact h.same a b

theorem inv_new : Inv (new columns n) 1 where
  mapping := rfl
  label a := Perm.SameCycle.refl _ _
  same a b h := Perm.sameCycle_one.1 h

/-- C13, one call: the decision `copy` takes and its effect on the cycles. -/
theorem copy_spec (s : Assembly columns n) (σ : Perm (Cell columns n)) (hs : Inv s σ)
    (lc : Col) (lr : ℕ) (rc : Col) (rr : ℕ) :
    (lc ∉ columns → copy s lc lr rc rr = .error (.columnNotInPermutation lc)) ∧
    (lc ∈ columns → rc ∉ columns → copy s lc lr rc rr = .error (.columnNotInPermutation rc)) ∧
    (lc ∈ columns → rc ∈ columns → (n ≤ lr ∨ n ≤ rr) → copy s lc lr rc rr = .error .boundsFailure) ∧
    (lc ∈ columns → rc ∈ columns → lr < n → rr < n →
      ∃ s' σ' l r, copy s lc lr rc rr = .ok s' ∧ Inv s' σ' ∧
        Names columns n lc lr l ∧ Names columns n rc rr r ∧
        ∀ a b, σ'.SameCycle a b ↔ σ.SameCycle a b ∨
          (σ.SameCycle a l ∨ σ.SameCycle a r) ∧ (σ.SameCycle b l ∨ σ.SameCycle b r)) := by
  have hpos : ∀ c ∈ columns, ∃ i, position columns c = some i := by
    intro c hc
    rcases h : position columns c with _ | i
    · exact absurd hc (position_none h)
    · exact ⟨i, rfl⟩
  have hneg : ∀ c, c ∉ columns → position columns c = none := by
    intro c hc
    rcases h : position columns c with _ | i
    · rfl
    · exact absurd ((position_some h).1 ▸ List.getElem_mem _) hc
  refine ⟨?_, ?_, ?_, ?_⟩
  · intro h
    simp [copy, hneg lc h]
  · intro h1 h2
    obtain ⟨i, hi⟩ := hpos lc h1
    simp [copy, hi, hneg rc h2]
  · intro h1 h2 h3
    obtain ⟨i, hi⟩ := hpos lc h1
    obtain ⟨j, hj⟩ := hpos rc h2
    simp [copy, hi, hj, h3]
  · intro h1 h2 h3 h4
    obtain ⟨i, hi⟩ := hpos lc h1
    obtain ⟨j, hj⟩ := hpos rc h2
    have hb : ¬ (lr ≥ n ∨ rr ≥ n) := by omega
    obtain ⟨l, hl⟩ : ∃ l : Cell columns n, l = (i, ⟨lr, h3⟩) := ⟨_, rfl⟩
    obtain ⟨r, hr⟩ : ∃ r : Cell columns n, r = (j, ⟨rr, h4⟩) := ⟨_, rfl⟩
    have hnl : Names columns n lc lr l := by
      obtain ⟨p1, p2⟩ := position_some hi
      rw [hl]; exact ⟨p1, p2, rfl⟩
    have hnr : Names columns n rc rr r := by
      obtain ⟨p1, p2⟩ := position_some hj
      rw [hr]; exact ⟨p1, p2, rfl⟩
    by_cases hc : s.aux l = s.aux r
    · refine ⟨s, σ, l, r, ?_, hs, hnl, hnr, ?_⟩
      · simp only [copy, hi, hj, hb, dite_false, ← hl, ← hr, hc, if_true]
      · intro a b
        have hlr := (hs.aux_iff l r).1 hc
        constructor
        · exact .inl
        · rintro (h | ⟨ha, hb⟩)
          · exact h
          · have ha' : σ.SameCycle a l := ha.elim id fun h => h.trans hlr.symm
            have hb' : σ.SameCycle b l := hb.elim id fun h => h.trans hlr.symm
            exact ha'.trans hb'.symm
    · have hlr : ¬ σ.SameCycle l r := fun h => hc ((hs.aux_iff l r).2 h)
      obtain ⟨lcyc, hlcyc⟩ : ∃ x, x = (if s.sizes (s.aux l) < s.sizes (s.aux r)
        then s.aux r else s.aux l) := ⟨_, rfl⟩
      obtain ⟨rcyc, hrcyc⟩ : ∃ x, x = (if s.sizes (s.aux l) < s.sizes (s.aux r)
        then s.aux l else s.aux r) := ⟨_, rfl⟩
      obtain ⟨aux', ha1, ha2⟩ := relabel_spec σ lcyc rcyc s.aux
      have hmerge := sameCycle_merge σ l r hlr
      have hcase : (lcyc = s.aux l ∧ rcyc = s.aux r) ∨ (lcyc = s.aux r ∧ rcyc = s.aux l) := by
        rw [hlcyc, hrcyc]
        by_cases hsz : s.sizes (s.aux l) < s.sizes (s.aux r) <;> simp [hsz]
      refine ⟨⟨Function.update (Function.update s.mapping l (s.mapping r)) r (s.mapping l), aux',
        Function.update s.sizes lcyc (s.sizes lcyc + s.sizes rcyc)⟩, σ * swap l r, l, r, ?_, ?_,
        hnl, hnr, hmerge⟩
      · simp only [copy, hi, hj, hb, dite_false, ← hl, ← hr, hc, if_false, ← hlcyc, ← hrcyc]
        rw [hs.mapping, ha1]
      · constructor
        · funext x
          simp only [hs.mapping]
          by_cases hx2 : x = r
          · subst hx2; simp
          · rw [Function.update_of_ne hx2]
            by_cases hx1 : x = l
            · subst hx1; simp
            · rw [Function.update_of_ne hx1, Perm.mul_apply, swap_apply_of_ne_of_ne hx1 hx2]
        · intro a
          simp only
          by_cases h : σ.SameCycle rcyc a
          · rw [(ha2 a).1 h, hmerge]
            right
            rcases hcase with ⟨e1, e2⟩ | ⟨e1, e2⟩
            · rw [e2] at h; rw [e1]
              exact ⟨.inr (((hs.label r).trans h).symm), .inl (hs.label l).symm⟩
            · rw [e2] at h; rw [e1]
              exact ⟨.inl (((hs.label l).trans h).symm), .inr (hs.label r).symm⟩
          · rw [(ha2 a).2 h, hmerge]
            exact .inl (hs.label a)
        · intro a b hab
          simp only
          rw [hmerge] at hab
          -- the label of a cell in one of the two merged cycles is `lcyc`
          have hlab : ∀ x, (σ.SameCycle x l ∨ σ.SameCycle x r) → aux' x = lcyc := by
            intro x hx
            by_cases h : σ.SameCycle rcyc x
            · exact (ha2 x).1 h
            · rw [(ha2 x).2 h]
              rcases hcase with ⟨e1, e2⟩ | ⟨e1, e2⟩
              · rw [e1]
                rcases hx with hx | hx
                · exact hs.same _ _ hx
                · exact absurd (e2 ▸ (hs.label r).symm.trans hx.symm) h
              · rw [e1]
                rcases hx with hx | hx
                · exact absurd (e2 ▸ (hs.label l).symm.trans hx.symm) h
                · exact hs.same _ _ hx
          rcases hab with hab | ⟨ha, hb⟩
          · by_cases h : σ.SameCycle rcyc a
            · rw [(ha2 a).1 h, (ha2 b).1 (h.trans hab)]
            · rw [(ha2 a).2 h, (ha2 b).2 fun h' => h (h'.trans hab.symm)]
              exact hs.same _ _ hab
          · rw [hlab a ha, hlab b hb]

theorem run_inv (calls : List (Call Col)) :
    ∀ (s : Assembly columns n) (σ : Perm (Cell columns n)), Inv s σ →
      ∃ σ', Inv (run s calls) σ' ∧
        ∀ a b, σ'.SameCycle a b ↔
          Relation.EqvGen (fun x y => σ.SameCycle x y ∨ Requested calls x y) a b := by
  induction calls with
  | nil =>
    intro s σ hs
    refine ⟨σ, hs, ?_⟩
    intro a b
    constructor
    · intro h; exact .rel _ _ (.inl h)
    · intro h
      induction h with
      | rel x y h =>
        rcases h with h | ⟨c, hc, _⟩
        · exact h
        · simp at hc
      | refl x => exact Perm.SameCycle.refl _ _
      | symm x y _ ih => exact ih.symm
      | trans x y z _ _ ih1 ih2 => exact ih1.trans ih2
  | cons c cs ih =>
    intro s σ hs
    obtain ⟨e1, e2, e3, e4⟩ := copy_spec s σ hs c.leftColumn c.leftRow c.rightColumn c.rightRow
    -- a failing call changes nothing and requests nothing
    have hfail : ∀ e, copy s c.leftColumn c.leftRow c.rightColumn c.rightRow = .error e →
        (∀ x y : Cell columns n, ¬ (Names columns n c.leftColumn c.leftRow x ∧
          Names columns n c.rightColumn c.rightRow y)) →
        ∃ σ', Inv (run s (c :: cs)) σ' ∧ ∀ a b, σ'.SameCycle a b ↔
          Relation.EqvGen (fun x y => σ.SameCycle x y ∨ Requested (c :: cs) x y) a b := by
      intro e he hno
      obtain ⟨σ', h1, h2⟩ := ih s σ hs
      refine ⟨σ', by simpa [run, he] using h1, ?_⟩
      intro a b
      rw [h2 a b]
      have : (fun x y : Cell columns n => σ.SameCycle x y ∨ Requested cs x y)
          = fun x y => σ.SameCycle x y ∨ Requested (c :: cs) x y := by
        funext x y
        simp only [Requested, List.mem_cons, eq_iff_iff]
        constructor
        · rintro (h | ⟨c', h, h'⟩)
          · exact .inl h
          · exact .inr ⟨c', .inr h, h'⟩
        · rintro (h | ⟨c', rfl | h, h'⟩)
          · exact .inl h
          · exact absurd h' (hno x y)
          · exact .inr ⟨c', h, h'⟩
      rw [this]
    by_cases hl : c.leftColumn ∈ columns
    swap
    · refine hfail _ (e1 hl) ?_
      rintro x y ⟨hx, _⟩
      exact hl (hx.1 ▸ List.getElem_mem _)
    by_cases hr : c.rightColumn ∈ columns
    swap
    · refine hfail _ (e2 hl hr) ?_
      rintro x y ⟨_, hy⟩
      exact hr (hy.1 ▸ List.getElem_mem _)
    by_cases hbound : n ≤ c.leftRow ∨ n ≤ c.rightRow
    · refine hfail _ (e3 hl hr hbound) ?_
      rintro x y ⟨hx, hy⟩
      have := hx.2.2; have := hy.2.2
      have := x.2.2; have := y.2.2
      omega
    · obtain ⟨s', σ', l, r, hc, hs', hnl, hnr, hm⟩ := e4 hl hr (by omega) (by omega)
      obtain ⟨σ'', h1, h2⟩ := ih s' σ' hs'
      refine ⟨σ'', by simpa [run, hc] using h1, ?_⟩
      intro a b
      rw [h2 a b]
      set R1 := fun x y : Cell columns n => σ'.SameCycle x y ∨ Requested cs x y with hR1
      set R2 := fun x y : Cell columns n => σ.SameCycle x y ∨ Requested (c :: cs) x y with hR2
      have hlr : Relation.EqvGen R2 l r :=
        .rel _ _ (.inr ⟨c, List.mem_cons_self, hnl, hnr⟩)
      have h12 : ∀ x y, R1 x y → Relation.EqvGen R2 x y := by
        rintro x y (h | ⟨c', h, h'⟩)
        · rcases (hm x y).1 h with h | ⟨hx, hy⟩
          · exact .rel _ _ (.inl h)
          · have hx' : Relation.EqvGen R2 x l := by
              rcases hx with hx | hx
              · exact .rel _ _ (.inl hx)
              · exact .trans _ _ _ (.rel _ _ (.inl hx)) (.symm _ _ hlr)
            have hy' : Relation.EqvGen R2 y l := by
              rcases hy with hy | hy
              · exact .rel _ _ (.inl hy)
              · exact .trans _ _ _ (.rel _ _ (.inl hy)) (.symm _ _ hlr)
            exact .trans _ _ _ hx' (.symm _ _ hy')
        · exact .rel _ _ (.inr ⟨c', List.mem_cons_of_mem _ h, h'⟩)
      have h21 : ∀ x y, R2 x y → Relation.EqvGen R1 x y := by
        rintro x y (h | ⟨c', h, h'⟩)
        · exact .rel _ _ (.inl ((hm x y).2 (.inl h)))
        · rcases List.mem_cons.1 h with rfl | h
          · have hx := names_unique h'.1 hnl
            have hy := names_unique h'.2 hnr
            subst hx; subst hy
            exact .rel _ _ (.inl ((hm x y).2 (.inr ⟨.inl (Perm.SameCycle.refl _ _),
              .inr (Perm.SameCycle.refl _ _)⟩)))
          · exact .rel _ _ (.inr ⟨c', h, h'⟩)
      have lift : ∀ {R S : Cell columns n → Cell columns n → Prop},
          (∀ x y, R x y → Relation.EqvGen S x y) → ∀ {x y}, Relation.EqvGen R x y →
            Relation.EqvGen S x y := by
        intro R S hRS x y h
        induction h with
        | rel x y h => exact hRS x y h
        | refl x => exact .refl x
        | symm x y _ ih => exact .symm _ _ ih
        | trans x y z _ _ ih1 ih2 => exact .trans _ _ _ ih1 ih2
      exact ⟨lift h12, lift h21⟩

/-- C13: after any sequence of `copy` calls, the mapping is a permutation of the cells whose
cycles are exactly the classes of the equivalence generated by the requested copies.  Calls
that fail request nothing (`Requested` only counts calls naming cells). -/
theorem run_spec (calls : List (Call Col)) :
    let m := (run (new columns n) calls).mapping
    Function.Bijective m ∧
    ∀ a b, (∃ k, m^[k] a = b) ↔ Relation.EqvGen (Requested calls) a b := by
  obtain ⟨σ, h1, h2⟩ := run_inv calls (new columns n) 1 inv_new
  simp only [h1.mapping]
  refine ⟨σ.bijective, ?_⟩
  intro a b
  have hk : (∃ k, σ^[k] a = b) ↔ σ.SameCycle a b := by
    constructor
    · rintro ⟨k, rfl⟩; exact sameCycle_iterate σ a k
    · intro h
      obtain ⟨i, hi⟩ := h.exists_nat_pow_eq
      exact ⟨i, by rw [Perm.iterate_eq_pow, hi]⟩
  rw [hk, h2]
  clear hk
  constructor
  · intro h
    induction h with
    | rel x y h =>
      rcases h with h | h
      · have : x = y := by simpa using h
        subst this; exact .refl x
      · exact .rel _ _ h
    | refl x => exact .refl x
    | symm x y _ ih => exact .symm _ _ ih
    | trans x y z _ _ ih1 ih2 => exact .trans _ _ _ ih1 ih2
  · intro h
    induction h with
    | rel x y h => exact .rel _ _ (.inr h)
    | refl x => exact .refl x
    | symm x y _ ih => exact .symm _ _ ih
    | trans x y z _ _ ih1 ih2 => exact .trans _ _ _ ih1 ih2

/-- C13: what each call of a sequence returns: an error exactly for a column outside the
permutation or a row out of range, and the assembly after an error is the one before. -/
theorem copy_result (calls : List (Call Col)) (lc : Col) (lr : ℕ) (rc : Col) (rr : ℕ) :
    let res := copy (run (new columns n) calls) lc lr rc rr
    (lc ∉ columns → res = .error (.columnNotInPermutation lc)) ∧
    (lc ∈ columns → rc ∉ columns → res = .error (.columnNotInPermutation rc)) ∧
    ((∃ s', res = .ok s') ↔ lc ∈ columns ∧ rc ∈ columns ∧ lr < n ∧ rr < n) ∧
    (res = .error .boundsFailure ↔ lc ∈ columns ∧ rc ∈ columns ∧ (n ≤ lr ∨ n ≤ rr)) ∧
    res ≠ .error .loops := by
  obtain ⟨σ, h1, _⟩ := run_inv calls (new columns n) 1 inv_new
  obtain ⟨e1, e2, e3, e4⟩ := copy_spec _ σ h1 lc lr rc rr
  refine ⟨e1, e2, ?_⟩
  by_cases hl : lc ∈ columns
  · by_cases hr : rc ∈ columns
    · by_cases hb : n ≤ lr ∨ n ≤ rr
      · have hb' : ¬ (lr < n ∧ rr < n) := by omega
        simp [e3 hl hr hb, hl, hr, hb, hb']
      · obtain ⟨s', _, _, _, h, _⟩ := e4 hl hr (by omega) (by omega)
        have hb' : lr < n ∧ rr < n := by omega
        simp [h, hl, hr, hb, hb']
    · simp [e2 hl hr, hr]
  · simp [e1 hl, hl]

/-- Two copies join three cells of two columns into one cycle; a copy to a missing column and
one to a missing row change nothing. -/
example :
    let s := run (new [10, 20] 4) [⟨10, 0, 20, 3⟩, ⟨20, 3, 20, 1⟩, ⟨10, 0, 30, 1⟩, ⟨10, 4, 20, 1⟩]
    s.mapping ((0, 0) : Fin 2 × Fin 4) = (1, 3) ∧ s.mapping ((1, 3) : Fin 2 × Fin 4) = (1, 1) ∧
      s.mapping ((1, 1) : Fin 2 × Fin 4) = (0, 0)
      ∨ s.mapping ((0, 0) : Fin 2 × Fin 4) = (1, 1) ∧ s.mapping ((1, 1) : Fin 2 × Fin 4) = (1, 3) ∧
      s.mapping ((1, 3) : Fin 2 × Fin 4) = (0, 0) := by decide +kernel

end Verif.Copy
