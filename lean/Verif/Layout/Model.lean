import Verif.Floor.Single
import Verif.Link.Lemmas
import Verif.Region.Model

/-!
# From the regions of a circuit to its rows: specification

The gadgets are laid out in regions (`Verif.Region`): their theorems are about gates, copies and
lookups at rows of regions.  The proof system enforces the constraints of a constraint system on the
rows of the whole circuit (`Verif.Link`).  Between the two are the floor planners (`Verif.Floor`) and
the calls on the backend (`Verif.Rows`).  The definitions here say how the four descriptions of one
circuit are related; none of them is a function of the code, except where a comment says so.
-/

namespace Verif.Layout

open Verif.Assigned (Assigned)
open Verif.Cs (Cs Column Kind)
open Verif.Expr
open Verif.ExprEval
open Verif.Floor (RegionColumn ROp COp Owner)
open Verif.Mock (cellVal)
open Verif.Region (Grid Gates LookupArg)

variable {C S F : Type}

/-- `From<Column<Any>> for RegionColumn`: layouter.rs 136-140. -/
def ofColumn : Column → RegionColumn
  | ⟨.advice, i⟩ => .advice i
  | ⟨.fixed, i⟩ => .fixed i
  | ⟨.inst, i⟩ => .inst i

/-- The same cell, named by a gadget and by a floor planner.  `ι` gives the column of the constraint
system that a column of the gadget is. -/
structure IsCell (ι : C → Column) (c : Region.Cell C) (x : Floor.Cell) : Prop where
  region : c.reg = x.region
  offset : c.row = x.offset
  col : ofColumn (ι c.col) = x.col

/-- The same call, made by a gadget and by the closure of region `i`.  `σ` gives the index of a
selector. -/
def Same (ι : C → Column) (σ : S → ℕ) : Region.Op C S F → ℕ → ROp F → Prop
  | .advice c v, i, .advice k o w => ι c.col = ⟨.advice, k⟩ ∧ c.reg = i ∧ c.row = o ∧ v = w
  | .fixed c v, i, .fixed k o w => ι c.col = ⟨.fixed, k⟩ ∧ c.reg = i ∧ c.row = o ∧ v = w
  | .enable s reg row, i, .enable k o => σ s = k ∧ reg = i ∧ row = o
  | .equal a b, _, .equal x y => IsCell ι a x ∧ IsCell ι b y
  | .const c v, _, .constant x w => IsCell ι c x ∧ v = w
  | _, _, _ => False

/-- The regions make the calls of the gadgets, and no others except `constrain_instance`. -/
structure Describes (ι : C → Column) (σ : S → ℕ) (ops : List (Region.Op C S F))
    (regions : List (List (ROp F))) : Prop where
  asked : ∀ op ∈ ops, ∃ i r, regions[i]? = some r ∧ ∃ o ∈ r, Same ι σ op i o
  only : ∀ i r, regions[i]? = some r → ∀ o ∈ r, (∀ cell column row, o ≠ .inst cell column row) →
    ∃ op ∈ ops, Same ι σ op i o

/-- The calls on the backend that describe the circuit are those the planner makes, and those that
fill the columns `tables` of lookup tables, which are fixed columns no region assigns. -/
structure Lays [Field F] [DecidableEq F] (tables : ℕ → Prop) (calls : List (Owner × COp F))
    (rops : List (Rows.Op F)) : Prop where
  enable : ∀ w s r, (w, .enable s r) ∈ calls → ∃ b, Rows.Op.selector ⟨s, b⟩ r ∈ rops
  enable_of : ∀ s r, Rows.Op.selector s r ∈ rops → ∃ w, (w, .enable s.index r) ∈ calls
  fixed : ∀ w c r v, (w, .fixed c r v) ∈ calls →
    ∃ a, a.evaluate = v ∧ Rows.Op.fixed c r (some a) ∈ rops
  fixed_of : ∀ c r x, Rows.Op.fixed c r x ∈ rops →
    tables c ∨ ∃ w a, x = some a ∧ (w, .fixed c r a.evaluate) ∈ calls
  copy : ∀ w a ra b rb, (w, .copy (ofColumn a) ra (ofColumn b) rb) ∈ calls →
    Rows.Op.copy a ra b rb ∈ rops
  copy_of : ∀ a ra b rb, Rows.Op.copy a ra b rb ∈ rops →
    ∃ w, (w, .copy (ofColumn a) ra (ofColumn b) rb) ∈ calls
  fill_of : ∀ c r x, Rows.Op.fill c r x ∈ rops → tables c
  table : ∀ w c r v, (w, .fixed c r v) ∈ calls → ¬ tables c

/-- No call fails: all rows are usable and the columns of copies are enabled for equality. -/
structure Fits (cs : Cs F) (usable : ℕ) (calls : List (Owner × COp F)) : Prop where
  enable : ∀ w s r, (w, .enable s r) ∈ calls → r < usable
  advice : ∀ w c r v, (w, .advice c r v) ∈ calls → r < usable
  fixed : ∀ w c r v, (w, .fixed c r v) ∈ calls → r < usable
  rows : ∀ w a ra b rb, (w, .copy a ra b rb) ∈ calls → ra < usable ∧ rb < usable
  columns : ∀ w a ra b rb, (w, .copy (ofColumn a) ra (ofColumn b) rb) ∈ calls →
    a ∈ cs.permutation ∧ b ∈ cs.permutation

/-- A region does not assign two values to a fixed cell. -/
def OneValue (regions : List (List (ROp F))) : Prop :=
  ∀ (i : ℕ) r, regions[i]? = some r → ∀ c o v w, ROp.fixed c o v ∈ r →
    ROp.fixed c o w ∈ r → v = w

section

variable [Field F]

/-- The assignment the columns `t` of the circuit give to the regions, with the start rows
`starts`: what a gate reads, `rot` rows from row `row` of region `reg`, is what the circuit has
there, whichever region it belongs to. -/
def gridOf (ι : C → Column) (starts : List ℕ) (n : ℕ) (t : Cols F) : Grid C F := fun reg col row =>
  cellVal t (ι col) (rotRow n (starts.getD reg 0) row)

/-- The expressions `e` are the polynomials of the gate `g`, each multiplied by its selector:
`Constraints::with_selector`. -/
def GateIs (ι : C → Column) (σ : S → ℕ) (e : List (Expr F))
    (g : S × ((C → ℤ → F) → List F)) : Prop :=
  ∀ n sel (t : Cols F) j, e.map (fun e => e.value id (rowEnv n sel t j)) =
    (g.2 fun c rot => cellVal t (ι c) (rotRow n j rot)).map fun p =>
      (if sel (σ g.1) j then 1 else 0) * p

/-- The input expressions of `l'` are those of `l`. -/
def InputIs (ι : C → Column) (σ : S → ℕ) (l' : Cs.Lookup F) (l : LookupArg C S F) : Prop :=
  ∀ n sel (t : Cols F) j, l'.input.map (fun e => e.value id (rowEnv n sel t j)) =
    l.input (fun s => if sel (σ s) j then 1 else 0) fun c rot => cellVal t (ι c) (rotRow n j rot)

/-- The table expressions of `l'` give, on the usable rows, the rows of the table of `l`. -/
def TableIs (n usable : ℕ) (t : Cols F) (l' : Cs.Lookup F) (l : LookupArg C S F) : Prop :=
  ∀ sel v, v ∈ l.table ↔
    ∃ j < usable, l'.table.map (fun e => e.value id (rowEnv n sel t j)) = v

/-- The constraint system has the gates `gates` and the lookups `lookups`, and no others; the tables
are those in `t`. -/
structure Implements (ι : C → Column) (σ : S → ℕ) (gates : Gates C S F)
    (lookups : List (LookupArg C S F)) (cs : Cs F) (n usable : ℕ) (t : Cols F) : Prop where
  gate : ∀ g ∈ gates, ∃ e ∈ cs.gates, GateIs ι σ e g
  gate_of : ∀ e ∈ cs.gates, ∃ g ∈ gates, GateIs ι σ e g
  lookup : ∀ l ∈ lookups, ∃ l' ∈ cs.lookups, InputIs ι σ l' l ∧ TableIs n usable t l' l
  lookup_of : ∀ l' ∈ cs.lookups, ∃ l ∈ lookups, InputIs ι σ l' l ∧ TableIs n usable t l' l

/-- How a lookup uses its selectors `sels`: with all of them off the input is in the table whatever
is in the row, and every region that enables one of them enables `main` somewhere, so that no two
such regions can share a row. -/
structure Guarded (l : LookupArg C S F) (ops : List (Region.Op C S F)) (sels : S → Prop)
    (main : S) : Prop where
  reads : ∀ f f' : S → F, (∀ s, sels s → f s = f' s) → ∀ q, l.input f q = l.input f' q
  off : ∀ f : S → F, (∀ s, sels s → f s = 0) → ∀ q, l.input f q ∈ l.table
  main : ∀ s reg row, sels s → .enable s reg row ∈ ops → ∃ row', .enable main reg row' ∈ ops

end

end Verif.Layout
