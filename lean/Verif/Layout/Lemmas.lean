import Verif.Layout.Laid

/-!
# Rows of regions and rows of the circuit
-/

namespace Verif.Layout

open Verif.Assigned (Assigned)
open Verif.Cs (Cs Column Kind)
open Verif.Expr
open Verif.ExprEval
open Verif.Floor (RegionColumn ROp COp Owner constantsOf mem_constantsOf Uses shape shape_covers)
open Verif.Link (Meets fixedCells)
open Verif.Mock (cellVal)
open Verif.Region (Grid Gates LookupArg Sat SatLookup Honest selectors)
open Verif.Rows (enables fixedWrite lastWrite)

variable {C S F : Type}

theorem ofColumn_inj {a b : Column} (h : ofColumn a = ofColumn b) : a = b := by
  rcases a with ⟨_ | _ | _, i⟩ <;> rcases b with ⟨_ | _ | _, j⟩ <;> simp_all [ofColumn]

theorem Laid.start {regions : List (List (ROp F))} {starts : List ℕ}
    {calls : List (Owner × COp F)} (h : Laid regions starts calls) {i : ℕ} {r : List (ROp F)}
    (hi : regions[i]? = some r) : ∃ st, starts[i]? = some st := by
  have := (List.getElem?_eq_some_iff.1 hi).1
  rw [← h.len] at this
  exact ⟨_, List.getElem?_eq_getElem this⟩

theorem getD_of {starts : List ℕ} {i st : ℕ} (h : starts[i]? = some st) : starts.getD i 0 = st := by
  simp [List.getD_eq_getElem?_getD, h]

section

variable [Field F]

/-- The value of a cell. -/
theorem gridOf_at {ι : C → Column} {starts : List ℕ} {n : ℕ} {t : Cols F} {c : Region.Cell C}
    {x : Floor.Cell} (hc : IsCell ι c x) {st : ℕ} (hs : starts[x.region]? = some st)
    (hn : st + x.offset < n) :
    (gridOf ι starts n t).at c = cellVal t (ι c.col) (st + x.offset) := by
  unfold Grid.at gridOf
  rw [hc.region, hc.offset, getD_of hs]
  congr 1
  rw [rotRow, Int.emod_eq_of_lt (by omega) (by omega)]
  omega

/-- What a gate sees. -/
theorem gridOf_query {ι : C → Column} {starts : List ℕ} {n : ℕ} {t : Cols F} {reg st : ℕ}
    (hs : starts[reg]? = some st) (o : ℕ) :
    (gridOf ι starts n t).query reg o = fun c rot => cellVal t (ι c) (rotRow n (st + o) rot) := by
  funext c rot
  unfold Grid.query gridOf
  rw [getD_of hs]
  congr 1
  simp only [rotRow]
  push_cast
  rw [add_assoc]

end

section

variable {ι : C → Column} {σ : S → ℕ} {ops : List (Region.Op C S F)}
  {regions : List (List (ROp F))}

theorem Describes.advice (h : Describes ι σ ops regions) {c : Region.Cell C} {v : F}
    (ho : .advice c v ∈ ops) : ∃ r k o, regions[c.reg]? = some r ∧ ι c.col = ⟨.advice, k⟩ ∧
      c.row = (o : ℕ) ∧ .advice k o v ∈ r := by
  obtain ⟨i, r, hi, o, hor, hs⟩ := h.asked _ ho
  cases o <;> simp only [Same] at hs
  obtain ⟨h1, rfl, h3, rfl⟩ := hs
  exact ⟨r, _, _, hi, h1, h3, hor⟩

theorem Describes.fixed (h : Describes ι σ ops regions) {c : Region.Cell C} {v : F}
    (ho : .fixed c v ∈ ops) : ∃ r k o, regions[c.reg]? = some r ∧ ι c.col = ⟨.fixed, k⟩ ∧
      c.row = (o : ℕ) ∧ .fixed k o v ∈ r := by
  obtain ⟨i, r, hi, o, hor, hs⟩ := h.asked _ ho
  cases o <;> simp only [Same] at hs
  obtain ⟨h1, rfl, h3, rfl⟩ := hs
  exact ⟨r, _, _, hi, h1, h3, hor⟩

theorem Describes.enable (h : Describes ι σ ops regions) {s : S} {reg : ℕ} {row : ℤ}
    (ho : .enable s reg row ∈ ops) : ∃ r o, regions[reg]? = some r ∧ row = (o : ℕ) ∧
      .enable (σ s) o ∈ r := by
  obtain ⟨i, r, hi, o, hor, hs⟩ := h.asked _ ho
  cases o <;> simp only [Same] at hs
  obtain ⟨rfl, rfl, h3⟩ := hs
  exact ⟨r, _, hi, h3, hor⟩

theorem Describes.equal (h : Describes ι σ ops regions) {a b : Region.Cell C}
    (ho : .equal a b ∈ ops) : ∃ (i : ℕ) (r : List (ROp F)) (x y : Floor.Cell), regions[i]? = some r ∧ IsCell ι a x ∧
      IsCell ι b y ∧ ROp.equal x y ∈ r := by
  obtain ⟨i, r, hi, o, hor, hs⟩ := h.asked _ ho
  cases o <;> simp only [Same] at hs
  exact ⟨i, r, _, _, hi, hs.1, hs.2, hor⟩

theorem Describes.const (h : Describes ι σ ops regions) {c : Region.Cell C} {v : F}
    (ho : .const c v ∈ ops) : ∃ (i : ℕ) (r : List (ROp F)) (x : Floor.Cell), regions[i]? = some r ∧ IsCell ι c x ∧
      ROp.constant x v ∈ r := by
  obtain ⟨i, r, hi, o, hor, hs⟩ := h.asked _ ho
  cases o <;> simp only [Same] at hs
  obtain ⟨h1, rfl⟩ := hs
  exact ⟨i, r, _, hi, h1, hor⟩

theorem Describes.enable_of (h : Describes ι σ ops regions) {i : ℕ} {r : List (ROp F)}
    (hi : regions[i]? = some r) {k o : ℕ} (ho : .enable k o ∈ r) :
    ∃ s, σ s = k ∧ .enable s i (o : ℤ) ∈ ops := by
  obtain ⟨op, hop, hs⟩ := h.only i r hi _ ho (by simp)
  cases op <;> simp only [Same] at hs
  obtain ⟨rfl, rfl, rfl⟩ := hs
  exact ⟨_, rfl, hop⟩

theorem Describes.equal_of (h : Describes ι σ ops regions) {i : ℕ} {r : List (ROp F)}
    (hi : regions[i]? = some r) {x y : Floor.Cell} (ho : .equal x y ∈ r) :
    ∃ a b, IsCell ι a x ∧ IsCell ι b y ∧ .equal a b ∈ ops := by
  obtain ⟨op, hop, hs⟩ := h.only i r hi _ ho (by simp)
  cases op <;> simp only [Same] at hs
  exact ⟨_, _, hs.1, hs.2, hop⟩

theorem Describes.const_of (h : Describes ι σ ops regions) {i : ℕ} {r : List (ROp F)}
    (hi : regions[i]? = some r) {x : Floor.Cell} {v : F} (ho : .constant x v ∈ r) :
    ∃ c, IsCell ι c x ∧ .const c v ∈ ops := by
  obtain ⟨op, hop, hs⟩ := h.only i r hi _ ho (by simp)
  cases op <;> simp only [Same] at hs
  obtain ⟨h1, rfl⟩ := hs
  exact ⟨_, h1, hop⟩

end

/-! ### Fixed cells -/

/-- Two fixed calls on one cell have one value. -/
theorem Laid.fixed_unique {regions : List (List (ROp F))} {starts : List ℕ}
    {calls : List (Owner × COp F)} (h : Laid regions starts calls) (h1 : OneValue regions)
    {w w' : Owner} {c r : ℕ} {v v' : F} (hv : (w, .fixed c r v) ∈ calls)
    (hv' : (w', .fixed c r v') ∈ calls) : v = v' := by
  have hw : w = w' := h.owner _ hv _ hv' (.fixed c, r) rfl rfl
  subst hw
  rcases w with i | k
  · have key : ∃ ops st, regions[i]? = some ops ∧ starts[i]? = some st := by
      rcases h.mem _ hv with ⟨j, ops, hj, hw, -⟩ | ⟨k, _, _, _, _, _, -, -, -, hw | hw⟩
      · cases hw
        obtain ⟨st, hst⟩ := h.start hj
        exact ⟨ops, st, hj, hst⟩
      · cases hw
      · cases hw
    obtain ⟨ops, st, hi, hst⟩ := key
    have hr := (h.region i ops st hi hst).2.1
    obtain ⟨o, ho, e⟩ := (hr _ _ _).1 hv
    obtain ⟨o', ho', e'⟩ := (hr _ _ _).1 hv'
    obtain rfl : o = o' := by omega
    exact h1 i ops hi c o v v' ho ho'
  · have key : ∀ v, (Owner.constant k, COp.fixed c r v) ∈ calls →
        ∃ cell, (regions.flatMap constantsOf)[k]? = some (v, cell) := by
      intro v hv
      rcases h.mem _ hv with ⟨j, ops, hj, hw, -⟩ | ⟨k', _, _, v', cell, _, hk, -, -, hw | hw⟩
      · cases hw
      · cases hw; exact ⟨cell, hk⟩
      · cases hw
    obtain ⟨x, hx⟩ := key v hv
    obtain ⟨y, hy⟩ := key v' hv'
    rw [hx] at hy
    cases hy
    rfl

section

variable [Field F] [DecidableEq F]

/-- A fixed cell has the value the call asks for. -/
theorem fixedCells_eq {regions : List (List (ROp F))} {starts : List ℕ}
    {calls : List (Owner × COp F)} (h : Laid regions starts calls) (h1 : OneValue regions)
    {tables : ℕ → Prop} {rops : List (Rows.Op F)} (hl : Lays tables calls rops) {cs : Cs F} {n : ℕ}
    (hf : Fits cs (n - (cs.blindingFactors + 1)) calls) {w : Owner} {c r : ℕ} {v : F}
    (hv : (w, .fixed c r v) ∈ calls) : fixedCells cs n rops c r = v := by
  have hr := hf.fixed _ _ _ _ hv
  have hnt := hl.table _ _ _ _ hv
  have huniq : ∀ o ∈ rops, ∀ a, fixedWrite (n - (cs.blindingFactors + 1)) c r o = some a →
      a.evaluate = v := by
    intro o ho a ha
    cases o with
    | fixed c' r' x =>
      simp only [fixedWrite] at ha
      split_ifs at ha with hc
      obtain ⟨rfl, rfl, -⟩ := hc
      rcases hl.fixed_of _ _ _ ho with ht | ⟨w', a', hx, hm⟩
      · exact absurd ht hnt
      · rw [hx] at ha
        cases ha
        exact (h.fixed_unique h1 hv hm).symm
    | fill c' r' x =>
      simp only [fixedWrite] at ha
      split_ifs at ha with hc
      obtain ⟨rfl, -⟩ := hc
      exact absurd (hl.fill_of _ _ _ ho) hnt
    | _ => simp [fixedWrite] at ha
  obtain ⟨a, ha, hm⟩ := hl.fixed _ _ _ _ hv
  unfold fixedCells lastWrite
  rcases hfind : rops.reverse.findSome? (fixedWrite (n - (cs.blindingFactors + 1)) c r) with _ | b
  · have := List.findSome?_eq_none_iff.1 hfind _ (List.mem_reverse.2 hm)
    simp [fixedWrite, hr] at this
  · obtain ⟨o, ho, hb⟩ := List.exists_of_findSome?_eq_some hfind
    exact huniq o (List.mem_reverse.1 ho) b hb

/-- A selector is on at a row exactly if a region enables it there. -/
theorem enabled_iff {regions : List (List (ROp F))} {starts : List ℕ}
    {calls : List (Owner × COp F)} (h : Laid regions starts calls)
    {tables : ℕ → Prop} {rops : List (Rows.Op F)} (hl : Lays tables calls rops) {cs : Cs F}
    {usable : ℕ} (hf : Fits cs usable calls) (k j : ℕ) :
    rops.any (enables usable k j) = true ↔
      ∃ (i : ℕ) (r : List (ROp F)) (st o : ℕ), regions[i]? = some r ∧ starts[i]? = some st ∧
        ROp.enable k o ∈ r ∧ j = st + o := by
  rw [List.any_eq_true]
  constructor
  · rintro ⟨o, ho, hk⟩
    cases o with
    | selector s r =>
      simp only [enables, decide_eq_true_eq] at hk
      obtain ⟨rfl, rfl, -⟩ := hk
      obtain ⟨w, hw⟩ := hl.enable_of _ _ ho
      rcases h.mem _ hw with ⟨i, ops, hi, hi', -⟩ | ⟨k, _, _, _, _, _, -, -, -, he | he⟩
      · cases hi'
        obtain ⟨st, hst⟩ := h.start hi
        obtain ⟨o, ho, e⟩ := ((h.region i ops st hi hst).2.2.1 _ _).1 hw
        exact ⟨i, ops, st, o, hi, hst, ho, e⟩
      · cases he
      · cases he
    | _ => simp [enables] at hk
  · rintro ⟨i, r, st, o, hi, hst, ho, rfl⟩
    have hw := ((h.region i r st hi hst).2.2.1 _ _).2 ⟨o, ho, rfl⟩
    obtain ⟨b, hb⟩ := hl.enable _ _ _ hw
    exact ⟨_, hb, by simp [enables, hf.enable _ _ _ hw]⟩

end

end Verif.Layout
