import Verif.Layout.Props

/-!
# The regions of a gadget's calls

The calls of a layout program of `Verif.Region`, sorted by region, and the existence of columns with
the witness.
-/

namespace Verif.Layout

open Verif.Cs (Cs Column Kind)
open Verif.ExprEval
open Verif.Floor (RegionColumn ROp COp Owner)
open Verif.Link (Meets fixedCells)
open Verif.Region (Grid Gates LookupArg Sat SatLookup Honest selectors)

variable {C S F : Type} {ι : C → Column} {σ : S → ℕ} {ops : List (Region.Op C S F)} {m : ℕ}

/-- The cell of a planner. -/
def cellOf (ι : C → Column) (c : Region.Cell C) : Floor.Cell :=
  ⟨c.reg, c.row.toNat, ofColumn (ι c.col)⟩

/-- The region in whose closure a call is made.  Equalities are between a cell of the current region
and a cell of that or an earlier one; constants are asked for cells of the current region. -/
def home : Region.Op C S F → ℕ
  | .advice c _ => c.reg
  | .fixed c _ => c.reg
  | .enable _ reg _ => reg
  | .equal a b => max a.reg b.reg
  | .const c _ => c.reg

/-- The call of the closure. -/
def ropOf (ι : C → Column) (σ : S → ℕ) : Region.Op C S F → ROp F
  | .advice c v => .advice (ι c.col).index c.row.toNat v
  | .fixed c v => .fixed (ι c.col).index c.row.toNat v
  | .enable s _ row => .enable (σ s) row.toNat
  | .equal a b => .equal (cellOf ι a) (cellOf ι b)
  | .const c v => .constant (cellOf ι c) v

/-- The closures of the regions `0, …, m - 1`. -/
def split (ι : C → Column) (σ : S → ℕ) (m : ℕ) (ops : List (Region.Op C S F)) :
    List (List (ROp F)) :=
  (List.range m).map fun i => (ops.filter fun op => home op == i).map (ropOf ι σ)

/-- A call names cells with natural offsets in columns of the right kind. -/
def Typed (ι : C → Column) : Region.Op C S F → Prop
  | .advice c _ => (ι c.col).kind = .advice ∧ 0 ≤ c.row
  | .fixed c _ => (ι c.col).kind = .fixed ∧ 0 ≤ c.row
  | .enable _ _ row => 0 ≤ row
  | .equal a b => 0 ≤ a.row ∧ 0 ≤ b.row
  | .const c _ => 0 ≤ c.row

theorem isCell_cellOf {c : Region.Cell C} (h : 0 ≤ c.row) : IsCell ι c (cellOf ι c) :=
  ⟨rfl, by simp [cellOf, h], rfl⟩

theorem same_ropOf {op : Region.Op C S F} (h : Typed ι op) :
    Same ι σ op (home op) (ropOf ι σ op) := by
  cases op with
  | advice c v => exact ⟨by rw [← h.1], rfl, by simp [h.2], rfl⟩
  | fixed c v => exact ⟨by rw [← h.1], rfl, by simp [h.2], rfl⟩
  | enable s reg row => exact ⟨rfl, rfl, by have : 0 ≤ row := h; simp [this]⟩
  | equal a b => exact ⟨isCell_cellOf h.1, isCell_cellOf h.2⟩
  | const c v => exact ⟨isCell_cellOf h, rfl⟩

theorem split_getElem? (i : ℕ) (r : List (ROp F)) :
    (split ι σ m ops)[i]? = some r ↔
      i < m ∧ r = (ops.filter fun op => home op == i).map (ropOf ι σ) := by
  unfold split
  simp only [List.getElem?_map, Option.map_eq_some_iff]
  constructor
  · rintro ⟨a, h1, rfl⟩
    obtain ⟨h2, h3⟩ := List.getElem?_eq_some_iff.1 h1
    rw [List.getElem_range] at h3
    subst h3
    exact ⟨by simpa using h2, rfl⟩
  · rintro ⟨h, rfl⟩
    exact ⟨i, by rw [List.getElem?_range h], rfl⟩

/-- The closures make exactly the calls. -/
theorem split_describes (ht : ∀ op ∈ ops, Typed ι op) (hm : ∀ op ∈ ops, home op < m) :
    Describes ι σ ops (split ι σ m ops) where
  asked op hop := ⟨home op, _, (split_getElem? _ _).2 ⟨hm op hop, rfl⟩, ropOf ι σ op,
    List.mem_map.2 ⟨op, List.mem_filter.2 ⟨hop, by simp⟩, rfl⟩, same_ropOf (ht op hop)⟩
  only i r hr o ho _ := by
    obtain ⟨-, rfl⟩ := (split_getElem? _ _).1 hr
    obtain ⟨op, hop, rfl⟩ := List.mem_map.1 ho
    obtain ⟨hop, hi⟩ := List.mem_filter.1 hop
    have hi : home op = i := by simpa using hi
    exact ⟨op, hop, hi ▸ same_ropOf (ht op hop)⟩

/-- The closures name only cells of their own and earlier regions. -/
theorem split_causal : Floor.Causal (split ι σ m ops) := by
  intro i r hr o ho cell hcell
  obtain ⟨-, rfl⟩ := (split_getElem? _ _).1 hr
  obtain ⟨op, hop, rfl⟩ := List.mem_map.1 ho
  obtain ⟨-, hi⟩ := List.mem_filter.1 hop
  have hi : home op = i := by simpa using hi
  subst hi
  cases op with
  | equal a b =>
    simp only [ropOf, Floor.ROp.cells, List.mem_cons, List.not_mem_nil, or_false] at hcell
    rcases hcell with rfl | rfl <;> simp [home, cellOf]
  | const c v =>
    simp only [ropOf, Floor.ROp.cells, List.mem_cons, List.not_mem_nil, or_false] at hcell
    subst hcell
    simp [home, cellOf]
  | _ => simp [ropOf, Floor.ROp.cells] at hcell

/-- A fixed cell gets one value, if an assignment with the fixed values exists. -/
theorem oneValue_of (hι : Function.Injective ι) {regions : List (List (ROp F))}
    (hd : Describes ι σ ops regions) {G : Grid C F} (hG : Honest G ops) : OneValue regions := by
  intro i r hr c o v w hv hw
  have key : ∀ v, ROp.fixed c o v ∈ r →
      ∃ col, ι col = ⟨.fixed, c⟩ ∧ Region.Op.fixed ⟨i, col, (o : ℤ)⟩ v ∈ ops := by
    intro v hv
    obtain ⟨op, hop, hs⟩ := hd.only i r hr _ hv (by simp)
    rcases op with _ | ⟨⟨_, col, _⟩, _⟩ | _ | _ | _ <;> simp only [Same] at hs
    obtain ⟨h1, rfl, rfl, rfl⟩ := hs
    exact ⟨col, h1, hop⟩
  obtain ⟨a, ha, h1⟩ := key v hv
  obtain ⟨b, hb, h2⟩ := key w hw
  obtain rfl := hι (ha.trans hb.symm)
  exact (hG.2 _ _ h1).symm.trans (hG.2 _ _ h2)

/-- The advice columns with the witness exist, if an assignment with the witness exists. -/
theorem exists_witness [Zero F] (hι : Function.Injective ι) {regions : List (List (ROp F))}
    {starts : List ℕ} {calls : List (Owner × COp F)} (h : Laid regions starts calls)
    (hd : Describes ι σ ops regions) {G : Grid C F} (hG : Honest G ops) (blank : ℕ → ℕ → F) :
    ∃ advice : ℕ → ℕ → F, (∀ w c r v, (w, COp.advice c r v) ∈ calls → advice c r = v) ∧
      ∀ c r, (∀ w v, (w, COp.advice c r v) ∉ calls) → advice c r = blank c r := by
  classical
  have huniq : ∀ w w' c r v v', (w, COp.advice c r v) ∈ calls → (w', COp.advice c r v') ∈ calls →
      v = v' := by
    intro w w' c r v v' hv hv'
    obtain rfl : w = w' := h.owner _ hv _ hv' (.advice c, r) rfl rfl
    rcases h.mem _ hv with ⟨i, rg, hi, hw, -⟩ | ⟨k, _, _, _, _, _, -, -, -, hw | hw⟩
    · dsimp only at hw
      subst hw
      obtain ⟨st, hst⟩ := h.start hi
      have hr := (h.region i rg st hi hst).1
      have key : ∀ v, (Owner.region i, COp.advice c r v) ∈ calls →
          ∃ o col, r = st + o ∧ ι col = ⟨.advice, c⟩ ∧
            Region.Op.advice ⟨i, col, (o : ℤ)⟩ v ∈ ops := by
        intro v hv
        obtain ⟨o, ho, e⟩ := (hr _ _ _).1 hv
        obtain ⟨op, hop, hs⟩ := hd.only i rg hi _ ho (by simp)
        rcases op with ⟨⟨_, col, _⟩, _⟩ | _ | _ | _ | _ <;> simp only [Same] at hs
        obtain ⟨h1, rfl, rfl, rfl⟩ := hs
        exact ⟨o, col, e, h1, hop⟩
      obtain ⟨o, a, e1, ha, h1⟩ := key v hv
      obtain ⟨o', b, e2, hb, h2⟩ := key v' hv'
      obtain rfl : o = o' := by omega
      obtain rfl := hι (ha.trans hb.symm)
      exact (hG.1 _ _ h1).symm.trans (hG.1 _ _ h2)
    · cases hw
    · cases hw
  refine ⟨fun c r => if hx : ∃ v w, (w, COp.advice c r v) ∈ calls then hx.choose else blank c r,
    fun w c r v hv => ?_, fun c r hno => ?_⟩
  · have hx : ∃ v w, (w, COp.advice c r v) ∈ calls := ⟨v, w, hv⟩
    dsimp only
    rw [dif_pos hx]
    obtain ⟨w', hw'⟩ := hx.choose_spec
    exact huniq _ _ _ _ _ _ hw' hv
  · dsimp only
    rw [dif_neg]
    rintro ⟨v, w, hv⟩
    exact hno w v hv

end Verif.Layout
