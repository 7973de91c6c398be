import Verif.Layout.Lemmas

/-!
# What the regions ask for is what the circuit enforces (C80)
-/

namespace Verif.Layout

open Verif.Cs (Cs Column Kind)
open Verif.Expr
open Verif.ExprEval
open Verif.Floor (RegionColumn ROp COp Owner constantsOf mem_constantsOf Uses shape shape_covers)
open Verif.Link (Meets fixedCells)
open Verif.Mock (cellVal)
open Verif.Region (Grid Gates LookupArg Sat SatLookup Honest selectors)
open Verif.Rows (enables)

variable {C S F : Type} [Field F] [DecidableEq F]
  {ι : C → Column} {σ : S → ℕ} {ops : List (Region.Op C S F)} {regions : List (List (ROp F))}
  {starts : List ℕ} {calls : List (Owner × COp F)} {tables : ℕ → Prop} {rops : List (Rows.Op F)}
  {cs : Cs F} {n : ℕ} {t : Cols F}

/-- The hypotheses on the four descriptions of one circuit: `ops` for the gadgets, `regions` for the
planner, `calls` from the planner with start rows `starts`, `rops` on the backend. -/
structure Circuit (ι : C → Column) (σ : S → ℕ) (gates : Gates C S F)
    (lookups : List (LookupArg C S F)) (ops : List (Region.Op C S F))
    (regions : List (List (ROp F))) (starts : List ℕ) (calls : List (Owner × COp F))
    (tables : ℕ → Prop) (rops : List (Rows.Op F)) (cs : Cs F) (n : ℕ) (t : Cols F) : Prop where
  selectors : Function.Injective σ
  describes : Describes ι σ ops regions
  one : OneValue regions
  lays : Lays tables calls rops
  fits : Fits cs (n - (cs.blindingFactors + 1)) calls
  implements : Implements ι σ gates lookups cs n (n - (cs.blindingFactors + 1)) t
  guarded : ∀ l ∈ lookups, ∃ sels main, Guarded l ops sels main
  fixed : t.fixed = fixedCells cs n rops

section

variable {gates : Gates C S F} {lookups : List (LookupArg C S F)}

/-- At a row where region `i` enables a selector of a lookup, the selectors of the lookup are those
the region enables. -/
theorem selectors_eq (h : Laid regions starts calls)
    (hc : Circuit ι σ gates lookups ops regions starts calls tables rops cs n t)
    {l : LookupArg C S F} {sels : S → Prop} {main : S} (hg : Guarded l ops sels main) {i st o : ℕ}
    (hst : starts[i]? = some st) {s₀ : S} (h0 : sels s₀) (he : .enable s₀ i (o : ℤ) ∈ ops)
    (q : C → ℤ → F) :
    l.input (fun s => if rops.any (enables (n - (cs.blindingFactors + 1)) (σ s) (st + o)) then 1
      else 0) q = l.input (selectors ops i o) q := by
  refine hg.reads _ _ (fun s hs => ?_) q
  unfold selectors
  by_cases hon : .enable s i (o : ℤ) ∈ ops
  · rw [if_pos hon, if_pos]
    obtain ⟨r, o', hi, ho', hm⟩ := hc.describes.enable hon
    obtain rfl : o = o' := by omega
    exact (enabled_iff h hc.lays hc.fits _ _).2 ⟨i, r, st, o, hi, hst, hm, rfl⟩
  · rw [if_neg hon, if_neg]
    intro hany
    obtain ⟨j, r, st', o', hj, hst', hm, hrow⟩ := (enabled_iff h hc.lays hc.fits _ _).1 hany
    obtain ⟨s', hs', hs''⟩ := hc.describes.enable_of hj hm
    obtain rfl := hc.selectors hs'
    have hij : i = j := by
      obtain ⟨x, hx⟩ := hg.main _ _ _ h0 he
      obtain ⟨y, hy⟩ := hg.main _ _ _ hs hs''
      obtain ⟨ri, ox, hri, -, hmx⟩ := hc.describes.enable hx
      obtain ⟨rj, oy, hrj, -, hmy⟩ := hc.describes.enable hy
      obtain ⟨ri', o₁, hri', ho₁, hm₁⟩ := hc.describes.enable he
      rw [hri] at hri'
      cases hri'
      rw [hj] at hrj
      cases hrj
      have c1 := shape_covers (i := i) hmx rfl
      have c2 := shape_covers (i := j) hmy rfl
      have c3 := shape_covers (i := i) hm₁ rfl
      have c4 := shape_covers (i := j) hm rfl
      refine h.disjoint i j _ _ st st' hri hj hst hst' (.selector (σ main)) (st + o)
        ⟨c1.1, by dsimp only; omega, by dsimp only; omega⟩
        ⟨c2.1, by dsimp only; omega, by dsimp only; omega⟩
    subst hij
    rw [hst] at hst'
    cases hst'
    obtain rfl : o = o' := by omega
    exact hon hs''

/-- The value of a copied cell. -/
theorem copy_eq (hc : Circuit ι σ gates lookups ops regions starts calls tables rops cs n t)
    (hm : Meets cs n rops t) {w : Owner} {a b : Column} {ra rb : ℕ}
    (h : (w, .copy (ofColumn a) ra (ofColumn b) rb) ∈ calls) : cellVal t a ra = cellVal t b rb :=
  hm.copies _ _ _ _ (hc.lays.copy _ _ _ _ _ h) (hc.fits.columns _ _ _ _ _ h).1
    (hc.fits.columns _ _ _ _ _ h).2 (hc.fits.rows _ _ _ _ _ h).1 (hc.fits.rows _ _ _ _ _ h).2

/-- Soundness, for both planners. -/
theorem Laid.sound (h : Laid regions starts calls)
    (hc : Circuit ι σ gates lookups ops regions starts calls tables rops cs n t)
    (hm : Meets cs n rops t) :
    Sat gates (gridOf ι starts n t) ops ∧
      (∀ l ∈ lookups, ∀ reg, SatLookup l (gridOf ι starts n t) ops reg) ∧
      ∀ (i : ℕ) r, regions[i]? = some r → ∀ cell column row, ROp.inst cell column row ∈ r →
        ∀ c, IsCell ι c cell → (gridOf ι starts n t).at c = t.inst column row := by
  have hn : n - (cs.blindingFactors + 1) ≤ n := Nat.sub_le _ _
  refine ⟨⟨?_, ?_, ?_, ?_⟩, ?_, ?_⟩
  · intro g hg reg row he p hp
    obtain ⟨r, o, hr, rfl, hmem⟩ := hc.describes.enable he
    obtain ⟨st, hst⟩ := h.start hr
    rw [gridOf_query hst] at hp
    obtain ⟨e, hes, hgate⟩ := hc.implements.gate g hg
    have hon := (enabled_iff h hc.lays hc.fits (σ g.1) (st + o)).2 ⟨reg, r, st, o, hr, hst, hmem, rfl⟩
    have hj : st + o < n := lt_of_lt_of_le
      (hc.fits.enable _ _ _ (((h.region reg r st hr hst).2.2.1 _ _).2 ⟨o, hmem, rfl⟩)) hn
    have hval := hgate n (fun i r => rops.any (enables (n - (cs.blindingFactors + 1)) i r)) t (st + o)
    have hin : (1 : F) * p ∈ (g.2 fun c rot => cellVal t (ι c) (rotRow n (st + o) rot)).map fun p =>
        (if rops.any (enables (n - (cs.blindingFactors + 1)) (σ g.1) (st + o)) then 1 else 0) * p := by
      rw [if_pos hon]
      exact List.mem_map.2 ⟨p, hp, rfl⟩
    rw [← hval, List.mem_map] at hin
    obtain ⟨e', he', hv⟩ := hin
    rw [hm.gates e hes e' he' _ hj, one_mul] at hv
    exact hv.symm
  · intro a b hab
    obtain ⟨i, r, x, y, hi, hx, hy, hmem⟩ := hc.describes.equal hab
    obtain ⟨st, hst⟩ := h.start hi
    obtain ⟨ra, rb, h1, h2, h3⟩ := (h.region i r st hi hst).2.2.2.1 x y hmem
    have hrows := hc.fits.rows _ _ _ _ _ h3
    rw [← hx.col, ← hy.col] at h3
    rw [gridOf_at hx h1 (by omega), gridOf_at hy h2 (by omega)]
    exact copy_eq hc hm h3
  · intro c v hcv
    obtain ⟨i, r, x, hi, hx, hmem⟩ := hc.describes.const hcv
    have hk : (v, x) ∈ regions.flatMap constantsOf :=
      List.mem_flatMap.2 ⟨r, List.mem_of_getElem? hi, mem_constantsOf.2 hmem⟩
    obtain ⟨k, hk⟩ := List.getElem?_of_mem hk
    obtain ⟨col, row, st, h1, h2, h3⟩ := h.consts k v x hk
    have hrows := hc.fits.rows _ _ _ _ _ h3
    rw [← hx.col] at h3
    have hcopy := copy_eq (a := ⟨.fixed, col⟩) hc hm h3
    rw [gridOf_at hx h1 (by omega), ← hcopy]
    show t.fixed col row = v
    rw [hc.fixed]
    exact fixedCells_eq h hc.one hc.lays hc.fits h2
  · intro c v hcv
    obtain ⟨r, k, o, hr, hk, ho, hmem⟩ := hc.describes.fixed hcv
    obtain ⟨st, hst⟩ := h.start hr
    have hcall := ((h.region _ r st hr hst).2.1 _ _ _).2 ⟨o, hmem, rfl⟩
    have hrow := hc.fits.fixed _ _ _ _ hcall
    have hx : IsCell ι c ⟨c.reg, o, ofColumn (ι c.col)⟩ := ⟨rfl, ho, rfl⟩
    rw [gridOf_at hx hst (by dsimp only; omega), hk]
    show t.fixed k (st + o) = v
    rw [hc.fixed]
    exact fixedCells_eq h hc.one hc.lays hc.fits hcall
  · intro l hl reg row
    obtain ⟨sels, main, hg⟩ := hc.guarded l hl
    by_cases hon : ∃ s, sels s ∧ .enable s reg row ∈ ops
    · obtain ⟨s, hs, he⟩ := hon
      obtain ⟨r, o, hr, rfl, hmem⟩ := hc.describes.enable he
      obtain ⟨st, hst⟩ := h.start hr
      have hj := hc.fits.enable _ _ _ (((h.region reg r st hr hst).2.2.1 _ _).2 ⟨o, hmem, rfl⟩)
      obtain ⟨l', hl', hin, htab⟩ := hc.implements.lookup l hl
      rw [gridOf_query hst, ← selectors_eq h hc hg hst hs he, ← hin n
        (fun i r => rops.any (enables (n - (cs.blindingFactors + 1)) i r)) t (st + o)]
      obtain ⟨j', hj', hv⟩ := hm.lookups l' hl' (st + o) hj
      exact (htab _ _).2 ⟨j', hj', hv.symm⟩
    · refine hg.off _ (fun s hs => ?_) _
      exact if_neg fun he => hon ⟨s, hs, he⟩
  · intro i r hi cell column row hmem c hx
    obtain ⟨st, hst⟩ := h.start hi
    obtain ⟨ra, h1, h2⟩ := (h.region i r st hi hst).2.2.2.2 cell column row hmem
    have hrows := hc.fits.rows _ _ _ _ _ h2
    rw [← hx.col] at h2
    have := copy_eq (b := ⟨.inst, column⟩) hc hm h2
    rw [gridOf_at hx h1 (by omega), this]
    rfl

/-- The witness the closures compute is in the columns. -/
def Witness (calls : List (Owner × COp F)) (t : Cols F) : Prop :=
  ∀ w c r v, (w, COp.advice c r v) ∈ calls → t.advice c r = v

theorem Laid.honest (h : Laid regions starts calls)
    (hc : Circuit ι σ gates lookups ops regions starts calls tables rops cs n t)
    (hw : Witness calls t) : Honest (gridOf ι starts n t) ops := by
  have hn : n - (cs.blindingFactors + 1) ≤ n := Nat.sub_le _ _
  constructor
  · intro c v hcv
    obtain ⟨r, k, o, hr, hk, ho, hmem⟩ := hc.describes.advice hcv
    obtain ⟨st, hst⟩ := h.start hr
    have hcall := ((h.region _ r st hr hst).1 _ _ _).2 ⟨o, hmem, rfl⟩
    have hrow := hc.fits.advice _ _ _ _ hcall
    have hx : IsCell ι c ⟨c.reg, o, ofColumn (ι c.col)⟩ := ⟨rfl, ho, rfl⟩
    rw [gridOf_at hx hst (by dsimp only; omega), hk]
    exact hw _ _ _ _ hcall
  · intro c v hcv
    obtain ⟨r, k, o, hr, hk, ho, hmem⟩ := hc.describes.fixed hcv
    obtain ⟨st, hst⟩ := h.start hr
    have hcall := ((h.region _ r st hr hst).2.1 _ _ _).2 ⟨o, hmem, rfl⟩
    have hrow := hc.fits.fixed _ _ _ _ hcall
    have hx : IsCell ι c ⟨c.reg, o, ofColumn (ι c.col)⟩ := ⟨rfl, ho, rfl⟩
    rw [gridOf_at hx hst (by dsimp only; omega), hk]
    show t.fixed k (st + o) = v
    rw [hc.fixed]
    exact fixedCells_eq h hc.one hc.lays hc.fits hcall

/-- Completeness, for both planners: if the constraints of the regions hold of the assignment the
columns give, and the cells constrained to instance cells have their values, the circuit is
satisfied. -/
theorem Laid.complete (h : Laid regions starts calls)
    (hc : Circuit ι σ gates lookups ops regions starts calls tables rops cs n t)
    (hs : Sat gates (gridOf ι starts n t) ops)
    (hl : ∀ l ∈ lookups, ∀ reg, SatLookup l (gridOf ι starts n t) ops reg)
    (hi : ∀ (i : ℕ) r, regions[i]? = some r → ∀ cell column row, ROp.inst cell column row ∈ r →
      ∃ c, IsCell ι c cell ∧ (gridOf ι starts n t).at c = t.inst column row) :
    Meets cs n rops t := by
  have hn : n - (cs.blindingFactors + 1) ≤ n := Nat.sub_le _ _
  refine ⟨?_, ?_, ?_⟩
  · intro e hes e' he' j hj
    obtain ⟨g, hg, hgate⟩ := hc.implements.gate_of e hes
    have hval := hgate n (fun i r => rops.any (enables (n - (cs.blindingFactors + 1)) i r)) t j
    have hin := List.mem_map_of_mem (f := fun e => e.value id (rowEnv n
      (fun i r => rops.any (enables (n - (cs.blindingFactors + 1)) i r)) t j)) he'
    rw [hval, List.mem_map] at hin
    obtain ⟨p, hp, hv⟩ := hin
    rw [← hv]
    split_ifs with hon
    · obtain ⟨i, r, st, o, hr, hst, hmem, rfl⟩ := (enabled_iff h hc.lays hc.fits _ _).1 hon
      obtain ⟨s, hss, hen⟩ := hc.describes.enable_of hr hmem
      obtain rfl := hc.selectors hss
      rw [← gridOf_query hst] at hp
      rw [hs.gates g hg i o hen p hp, mul_zero]
    · rw [zero_mul]
  · intro l' hl' j hj
    obtain ⟨l, hlm, hin, htab⟩ := hc.implements.lookup_of l' hl'
    obtain ⟨sels, main, hg⟩ := hc.guarded l hlm
    suffices hmem : l.input (fun s => if rops.any (enables (n - (cs.blindingFactors + 1)) (σ s) j)
        then 1 else 0) (fun c rot => cellVal t (ι c) (rotRow n j rot)) ∈ l.table by
      obtain ⟨j', hj', hv⟩ := (htab
        (fun i r => rops.any (enables (n - (cs.blindingFactors + 1)) i r)) _).1 hmem
      exact ⟨j', hj', by rw [hv]; exact hin n _ t j⟩
    by_cases hon : ∃ s, sels s ∧
        rops.any (enables (n - (cs.blindingFactors + 1)) (σ s) j) = true
    · obtain ⟨s, hss, he⟩ := hon
      obtain ⟨i, r, st, o, hr, hst, hmem, rfl⟩ := (enabled_iff h hc.lays hc.fits _ _).1 he
      obtain ⟨s', hss', hen⟩ := hc.describes.enable_of hr hmem
      obtain rfl := hc.selectors hss'
      rw [selectors_eq h hc hg hst hss hen, ← gridOf_query hst]
      exact hl l hlm i o
    · exact hg.off _ (fun s hss => if_neg fun he => hon ⟨s, hss, he⟩) _
  · intro a ra b rb hmem ha hb hra hrb
    obtain ⟨w, hw⟩ := hc.lays.copy_of _ _ _ _ hmem
    rcases h.mem _ hw with ⟨i, r, hr, -, op, hop, l, hpl, hin⟩ |
      ⟨k, c, row, v, cell, r, hk, hrow, hfix, he | he⟩
    · cases op with
      | equal x y =>
        simp only [Floor.place, Floor.rowOf, Option.bind_eq_bind, Option.bind_eq_some_iff,
          Option.map_eq_some_iff, Option.some.injEq] at hpl
        obtain ⟨_, ⟨sx, hsx, rfl⟩, _, ⟨sy, hsy, rfl⟩, rfl⟩ := hpl
        simp only [List.mem_singleton, COp.copy.injEq] at hin
        obtain ⟨h1, rfl, h3, rfl⟩ := hin
        obtain ⟨a', b', hx, hy, heq⟩ := hc.describes.equal_of hr hop
        have hv := hs.equal _ _ heq
        rw [gridOf_at hx hsx (by omega), gridOf_at hy hsy (by omega)] at hv
        rw [← hx.col] at h1
        rw [← hy.col] at h3
        rw [ofColumn_inj h1, ofColumn_inj h3]
        exact hv
      | inst x column row =>
        simp only [Floor.place, Floor.rowOf, Option.bind_eq_bind, Option.bind_eq_some_iff,
          Option.map_eq_some_iff, Option.some.injEq] at hpl
        obtain ⟨_, ⟨sx, hsx, rfl⟩, rfl⟩ := hpl
        simp only [List.mem_singleton, COp.copy.injEq] at hin
        obtain ⟨h1, rfl, h3, rfl⟩ := hin
        obtain ⟨c, hx, hv⟩ := hi i r hr x column _ hop
        rw [gridOf_at hx hsx (by omega)] at hv
        rw [← hx.col] at h1
        rw [ofColumn_inj h1, ofColumn_inj (b := ⟨.inst, column⟩) h3, hv]
        rfl
      | enable s o =>
        simp only [Floor.place, Option.bind_eq_bind, Option.bind_eq_some_iff,
          Option.some.injEq] at hpl
        obtain ⟨_, -, rfl⟩ := hpl
        simp at hin
      | advice c o v =>
        simp only [Floor.place, Option.bind_eq_bind, Option.bind_eq_some_iff,
          Option.some.injEq] at hpl
        obtain ⟨_, -, rfl⟩ := hpl
        simp at hin
      | fixed c o v =>
        simp only [Floor.place, Option.bind_eq_bind, Option.bind_eq_some_iff,
          Option.some.injEq] at hpl
        obtain ⟨_, -, rfl⟩ := hpl
        simp at hin
      | constant cell v =>
        simp only [Floor.place, Option.some.injEq] at hpl
        subst hpl
        simp at hin
    · cases he
    · simp only [Prod.mk.injEq, COp.copy.injEq] at he
      obtain ⟨-, h1, rfl, h3, rfl⟩ := he
      have hvx := List.mem_of_getElem? hk
      obtain ⟨rg, hrg, hcst⟩ := List.mem_flatMap.1 hvx
      obtain ⟨i, hri⟩ := List.getElem?_of_mem hrg
      obtain ⟨c', hx, hconst⟩ := hc.describes.const_of hri (mem_constantsOf.1 hcst)
      simp only [Floor.rowOf, Option.map_eq_some_iff] at hrow
      obtain ⟨sx, hsx, rfl⟩ := hrow
      have hv := hs.const _ _ hconst
      rw [gridOf_at hx hsx (by omega)] at hv
      rw [← hx.col] at h3
      rw [ofColumn_inj (b := ⟨.fixed, c⟩) h1, ofColumn_inj h3, hv]
      show t.fixed c _ = v
      rw [hc.fixed]
      exact fixedCells_eq h hc.one hc.lays hc.fits hfix

/-- **C80**, soundness with the V1 planner: if the columns `t` satisfy the constraint system on the
rows of the circuit, with the selectors, fixed cells and copies that synthesis asked for, the
assignment they give to the regions meets every gate, equality, constant, fixed value and lookup that
the regions asked for, and the cells constrained to the instance have its values. -/
theorem v1_sound {constants : List ℕ} (hnd : constants.Nodup)
    (h : Floor.v1 constants regions = .ok (starts, calls))
    (hc : Circuit ι σ gates lookups ops regions starts calls tables rops cs n t)
    (hm : Meets cs n rops t) :
    Sat gates (gridOf ι starts n t) ops ∧
      (∀ l ∈ lookups, ∀ reg, SatLookup l (gridOf ι starts n t) ops reg) ∧
      ∀ (i : ℕ) r, regions[i]? = some r → ∀ cell column row, ROp.inst cell column row ∈ r →
        ∀ c, IsCell ι c cell → (gridOf ι starts n t).at c = t.inst column row :=
  (v1_laid hnd h).sound hc hm

/-- **C80**, soundness with the single-pass planner. -/
theorem single_sound {constants : List ℕ} {s : Floor.Single}
    (h : Floor.single constants regions = .ok (s, calls))
    (hc : Circuit ι σ gates lookups ops regions s.regions calls tables rops cs n t)
    (hm : Meets cs n rops t) :
    Sat gates (gridOf ι s.regions n t) ops ∧
      (∀ l ∈ lookups, ∀ reg, SatLookup l (gridOf ι s.regions n t) ops reg) ∧
      ∀ (i : ℕ) r, regions[i]? = some r → ∀ cell column row, ROp.inst cell column row ∈ r →
        ∀ c, IsCell ι c cell → (gridOf ι s.regions n t).at c = t.inst column row :=
  (single_laid h).sound hc hm

/-- **C80**, completeness with the V1 planner: if every assignment with the witness the closures
compute meets what the regions ask for, then columns with that witness (and anything in the cells no
region assigns), whose cells constrained to the instance have its values, satisfy the constraint
system on the rows of the circuit. -/
theorem v1_complete {constants : List ℕ} (hnd : constants.Nodup)
    (h : Floor.v1 constants regions = .ok (starts, calls))
    (hc : Circuit ι σ gates lookups ops regions starts calls tables rops cs n t)
    (hw : Witness calls t)
    (hs : ∀ G, Honest G ops → Sat gates G ops ∧ ∀ l ∈ lookups, ∀ reg, SatLookup l G ops reg)
    (hi : ∀ (i : ℕ) r, regions[i]? = some r → ∀ cell column row, ROp.inst cell column row ∈ r →
      ∃ c, IsCell ι c cell ∧ (gridOf ι starts n t).at c = t.inst column row) :
    Meets cs n rops t :=
  have hh := (v1_laid hnd h).honest hc hw
  (v1_laid hnd h).complete hc (hs _ hh).1 (hs _ hh).2 hi

/-- **C80**, completeness with the single-pass planner. -/
theorem single_complete {constants : List ℕ} {s : Floor.Single}
    (h : Floor.single constants regions = .ok (s, calls))
    (hc : Circuit ι σ gates lookups ops regions s.regions calls tables rops cs n t)
    (hw : Witness calls t)
    (hs : ∀ G, Honest G ops → Sat gates G ops ∧ ∀ l ∈ lookups, ∀ reg, SatLookup l G ops reg)
    (hi : ∀ (i : ℕ) r, regions[i]? = some r → ∀ cell column row, ROp.inst cell column row ∈ r →
      ∃ c, IsCell ι c cell ∧ (gridOf ι s.regions n t).at c = t.inst column row) :
    Meets cs n rops t :=
  have hh := (single_laid h).honest hc hw
  (single_laid h).complete hc (hs _ hh).1 (hs _ hh).2 hi

end

end Verif.Layout
