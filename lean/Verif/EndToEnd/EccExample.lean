import Verif.EccApi.Example
import Verif.EndToEnd.Ecc
import Verif.EndToEnd.Exists

/-!
# A circuit of the elliptic curve API over Pallas, down to the keys

The sum of a constant point and a witnessed one, asserted to be a third one, in a constraint system
with all the gates of the chip and its range check table.
-/

namespace Verif.EndToEnd.EccExample

open Verif.Cs (Cs Column Kind)
open Verif.Domain (Domain Consts)
open Verif.ExprEval (Cols)
open Verif.Floor (ROp COp Owner)
open Verif.Layout
open Verif.Link
open Verif.Region (Grid Gates SatLookup Honest)
open Verif.Rows
open Verif.Ecc Verif.EccApi Verif.Pasta

/-- `P + Q = R` with a constant `P`. -/
def prog (P Q R : Pt (5 : ZMod pallas)) : List (Call (5 : ZMod pallas) vesta) :=
  [.newConstant P, .newPoint Q, .add (.point 0) (.point 1), .newPoint R,
    .constrainEqual (.point 2) (.point 3)]

/-- With the sum. -/
def sumProg (P Q : Pt (5 : ZMod pallas)) : List (Call (5 : ZMod pallas) vesta) := prog P Q (P + Q)

theorem sum_steps (P Q : Pt (5 : ZMod pallas)) :
    HSteps {} (sumProg P Q) { points := [P, Q, P + Q, P + Q] } :=
  .cons .newConstant (.cons .newPoint (.cons (.add (P := P) (Q := Q) rfl rfl) (.cons .newPoint
    (.cons (.constrainEqual (P := P + Q) rfl rfl) .nil))))

-- equality of field elements is decided by the order the proof system uses
attribute [-instance] ZMod.decidableEq

/-- Ten advice columns and nine fixed ones. -/
def columns (c : Fin 19) : Column := if c.val < 10 then ⟨.advice, c⟩ else ⟨.fixed, c - 10⟩

def advices (i : Fin 10) : Fin 19 := i.castLE (by decide)

def lagrangeCoeffs (i : Fin 8) : Fin 19 := (i.natAdd 10).castLE (by decide)

def selectors : Selectors (Fin 20) :=
  ⟨0, 1, 2, 3, fun i => (i.natAdd 4).castLE (by decide), fun i => (i.natAdd 7).castLE (by decide), 10,
    11, 12, 13, 14, 15, 16⟩

def rangeCheck : LookupRange.Config (Fin 19) (Fin 20) := ⟨17, 18, 19, 9, .base⟩

/-- The selectors of the lookup are complex ones. -/
def simple (i : ℕ) : Bool := i != 17 && i != 18

theorem fresh : Fresh advices lagrangeCoeffs 18 rangeCheck selectors := ⟨by decide, by decide⟩

def config : Config (Fin 19) (Fin 20) := configure advices lagrangeCoeffs 18 rangeCheck selectors

theorem columns_inj : Function.Injective columns := by decide +kernel

/-- The call is in columns of the right kind, in the first five regions, and does not enable the
lookup. -/
def check : Region.Op (Fin 19) (Fin 20) (ZMod pallas) → Bool
  | .advice c _ => (columns c.col).kind = .advice && 0 ≤ c.row && c.reg < 5
  | .fixed c _ => (columns c.col).kind = .fixed && 0 ≤ c.row && c.reg < 5
  | .enable s reg row => 0 ≤ row && reg < 5 && s != 17 && s != 18
  | .equal a b => 0 ≤ a.row && 0 ≤ b.row && a.reg < 5 && b.reg < 5
  | .const c _ => 0 ≤ c.row && c.reg < 5

theorem check_spec {op : Region.Op (Fin 19) (Fin 20) (ZMod pallas)} (h : check op = true) :
    Typed columns op ∧ home op < 5 ∧ ∀ s reg row, op = .enable s reg row → s ≠ 17 ∧ s ≠ 18 := by
  cases op <;> simp only [check, Bool.and_eq_true, decide_eq_true_eq, bne_iff_ne] at h <;>
    simp only [Typed, home, reduceCtorEq, false_implies, implies_true, and_true]
  · exact h
  · exact h
  · refine ⟨h.1.1.1, h.1.1.2, ?_⟩
    intro s reg row he
    cases he
    exact ⟨h.1.2, h.2⟩
  · exact ⟨h.1.1, max_lt h.1.2 h.2⟩
  · exact h

theorem prog_ops {P Q R : Pt (5 : ZMod pallas)} {e : Env (Fin 19) pallas vesta} {n : ℕ}
    {ops : List (Region.Op (Fin 19) (Fin 20) (ZMod pallas))}
    (h : run false config (prog P Q R) {} 0 = some (e, n, ops)) :
    ∀ op ∈ ops, Typed columns op ∧ home op < 5 ∧
      ∀ s reg row, op = .enable s reg row → s ≠ 17 ∧ s ≠ 18 := by
  have : (run false config (prog P Q R) {} 0).elim false (fun r => r.2.2.all check) = true := rfl
  rw [h] at this
  exact fun op hop => check_spec (List.all_eq_true.1 this op hop)

theorem hasCol (c : Fin 19) : HasCol 10 10 1 (columns c) := by
  unfold columns
  split_ifs with h
  · exact h
  · show c.val - 10 < 10
    omega

theorem lookup_poly : LookupPoly (F := ZMod pallas) (fun s : Fin 20 => s = 17 ∨ s = 18)
    (Allowed 10 10 1 1 columns) 20 10 (LookupRange.lookup 10 rangeCheck) [9] := by
  have h9 : Allowed 10 10 1 1 columns 9 0 := ⟨by decide, by decide⟩
  have h9' : Allowed 10 10 1 1 columns 9 1 := ⟨by decide, by decide⟩
  refine ⟨[fun sel q => sel 17 * (sel 18 * (q 9 0 - q 9 1 * ((2 ^ 10 : ℕ) : ZMod pallas)) +
    (1 - sel 18) * q 9 0)], rfl, ?_, by simp, rfl⟩
  intro f hf
  rw [List.mem_singleton] at hf
  subst hf
  exact ((LPoly.sel (.inl rfl)).mul (((LPoly.sel (.inr rfl)).mul ((LPoly.query h9).sub
    ((LPoly.query h9').mul (.const _)))).add (((LPoly.const 1).sub (.sel (.inr rfl))).mul
    (.query h9)))).mono (by decide)

theorem gates_poly : ∀ g ∈ EccApi.gates (5 : ZMod pallas) config,
    Polys (Allowed 10 10 1 1 columns) 20 g.2 := by
  have near : ∀ c : Fin 19, c.val < 10 → Near (Allowed 10 10 1 1 columns) c := by
    intro c hc
    have h : columns c = ⟨.advice, c⟩ := if_pos hc
    refine ⟨?_, ?_, ?_⟩ <;>
    · unfold Allowed
      rw [h]
      exact ⟨hc, by decide⟩
  have hz : Allowed 10 10 1 1 columns 18 0 := ⟨by decide, by decide⟩
  refine ecc_poly (fun i => near _ i.isLt) (fun i => ?_) hz (near _ (by decide)) 5
  have h : columns (lagrangeCoeffs i) = ⟨.fixed, i⟩ := by revert i; decide
  unfold Allowed
  rw [h]
  exact ⟨by have := i.isLt; omega, rfl⟩

/-- All the columns. -/
def allColumns : List Column :=
  (List.range 10).map (⟨.advice, ·⟩) ++ (List.range 10).map (⟨.fixed, ·⟩) ++ [⟨.inst, 0⟩]

theorem mem_allColumns (c : Column) : c ∈ allColumns ↔ HasCol 10 10 1 c := by
  rcases c with ⟨_ | _ | _, i⟩ <;> simp [allColumns, HasCol]

/-- A constraint system with the gates and the lookup of the chip. -/
theorem exists_cs : ∃ cs : Cs (ZMod pallas), Ready 10 10 1 20 1 20 simple cs ∧
    (∀ c, HasCol 10 10 1 c → c ∈ cs.permutation) ∧
    ∀ n usable (t : Cols (ZMod pallas)), usable ≤ n →
      (∀ v, v ∈ (LookupRange.lookup (F := ZMod pallas) 10 rangeCheck).table ↔
        ∃ j < usable, [Mock.cellVal t ⟨.fixed, 9⟩ (ExprEval.rotRow n j 0)] = v) →
      Implements columns Fin.val (EccApi.gates (5 : ZMod pallas) config)
        [LookupRange.lookup 10 rangeCheck] cs n usable t := by
  obtain ⟨cs, h1, h2, -, h4⟩ := exists_configured (na := 10) (nf := 10) (ni := 1) (ns := 20) (R := 1)
    (D := 20) (simple := simple) (ι := columns) (σ := Fin.val)
    (P := fun s : Fin 20 => s = 17 ∨ s = 18)
    (EccApi.gates (5 : ZMod pallas) config) [(LookupRange.lookup 10 rangeCheck, [9])] allColumns [0]
    (fun g _ => g.1.isLt) gates_poly (by decide) (by simpa using lookup_poly)
    (fun c hc => (mem_allColumns c).1 hc) (by simp)
  refine ⟨cs, h1, fun c hc => (h2 c).2 (.inl ((mem_allColumns c).2 hc)), ?_⟩
  intro n usable t hu ht
  refine h4 n usable t hu ?_
  intro l hl
  rw [List.mem_singleton] at hl
  subst hl
  exact ht

theorem guarded {ops : List (Region.Op (Fin 19) (Fin 20) (ZMod pallas))}
    (h : ∀ op ∈ ops, ∀ s reg row, op = .enable s reg row → s ≠ 17 ∧ s ≠ 18) :
    Guarded (LookupRange.lookup (F := ZMod pallas) 10 rangeCheck) ops (fun s => s = 17 ∨ s = 18) 17 where
  reads f f' hf q := by
    simp only [LookupRange.lookup, rangeCheck, hf 17 (.inl rfl), hf 18 (.inr rfl)]
  off f hf q := by
    simp only [LookupRange.lookup, rangeCheck, hf 17 (.inl rfl), zero_mul]
    exact List.mem_map.2 ⟨0, by simp, by simp⟩
  main s reg row hs he := by
    have := h _ he s reg row rfl
    rcases hs with rfl | rfl
    · exact absurd rfl this.1
    · exact absurd rfl this.2

/-- The program for `P + Q`, its constraint system, an execution on enough rows, and keys, for any
parameters and any valid constants of the field. -/
theorem exists_ecc [LinearOrder (ZMod pallas)] (P Q : Pt (5 : ZMod pallas)) :
    ∃ (cs : Cs (ZMod pallas)) (e : Env (Fin 19) pallas vesta) (n : ℕ)
      (ops : List (Region.Op (Fin 19) (Fin 20) (ZMod pallas)))
      (regions : List (List (ROp (ZMod pallas)))) (starts : List ℕ)
      (calls : List (Owner × COp (ZMod pallas))) (rops : List (Op (ZMod pallas))) (N : ℕ),
      run false config (sumProg P Q) {} 0 = some (e, n, ops) ∧ cs.permutation.length ≤ 21 ∧
      ∀ k, N ≤ 2 ^ k → Configured cs (2 ^ k) simple ∧
        (∀ inst, Execution columns Fin.val (EccApi.gates (5 : ZMod pallas) config)
          [LookupRange.lookup 10 rangeCheck] (· = 9) [0] cs (2 ^ k) inst rops ops regions starts
          calls) ∧
        ∀ (A : Type) [AddCommGroup A] [Module (ZMod pallas) A] (threads threads' : ℕ)
          (c : Consts (ZMod pallas)) (hasher : Transcript.Bytes → A) (pr : Msm.Params A)
          (delta repr : ZMod pallas), c.Valid → threads ≠ 0 → threads' ≠ 0 →
          Commitment.Params.new threads' c hasher k = some pr → k + 5 ≤ c.S →
          ∃ keys, keygen threads c pr delta repr cs rops = some keys := by
  obtain ⟨cs, h1, h2, h3⟩ := exists_cs
  obtain ⟨e, n, ops, r1, r2, r3⟩ := circuit_complete pallas_curve order_eq.symm fresh false
    (by simp [sumProg, prog, Call.BaseOk]) (sum_steps P Q)
  have hops := prog_ops r1
  obtain ⟨starts, calls, N, hsel, hex⟩ := exists_execution (simple := simple) (k₀ := 0) (tc := 9)
    (m := 5)
    (tbl := (List.range (2 ^ 10)).map fun (i : ℕ) => (i : ZMod pallas)) hasCol columns_inj
    Fin.val_injective (fun s => s.isLt) (fun op h => (hops op h).1) (fun op h => (hops op h).2.1)
    (by decide) (by decide) (by decide) h2 (lookups := [LookupRange.lookup 10 rangeCheck])
    (by simp) (by simp [LookupRange.lookup, rangeCheck])
    (fun n u t hu h => h3 n u t hu (h _ (by simp)))
    (by simpa using ⟨_, _, guarded fun op h => (hops op h).2.2⟩) [] (by simp) r2
    (fun G hG => ⟨(r3 G hG).1, by simpa using (r3 G hG).2.1⟩)
  refine ⟨cs, e, n, ops, splitInst columns Fin.val 5 ops [], starts, calls,
    backends simple 9 ((List.range (2 ^ 10)).map fun (i : ℕ) => (i : ZMod pallas)) calls,
    N + cs.minimumRows, r1, ?_, fun k hk => ?_⟩
  · have hsub : cs.permutation ⊆ allColumns := by
      intro c hc
      rw [mem_allColumns]
      have := (Cs.reach_inv h1.reach).permQueried c hc
      rcases c with ⟨_ | _ | _, i⟩
      · exact ((h1.advice _ _).1 this).1
      · exact ((h1.fixed _ _).1 this).1
      · exact ((h1.inst _ _).1 this).1
    exact ((Cs.reach_inv h1.reach).perm.subperm hsub).length_le.trans (by decide)
  have hconf : Configured cs (2 ^ k) simple := by
    refine h1.configured Nat.one_le_two_pow fun i hi hd => ?_
    rw [Ne, ZMod.natCast_eq_zero_iff]
    intro hdvd
    have := Nat.le_of_dvd hi hdvd
    have : 100 < pallas := by decide +kernel
    omega
  refine ⟨hconf, fun inst => hex _ inst (by omega) (by simp), ?_⟩
  intro A _ _ threads threads' c hasher pr delta repr hc ht ht' hpr hk5
  rw [← Option.ne_none_iff_exists']
  refine (keygen_total hc ht ht' hpr hconf delta repr _).2 ⟨⟨?_, by omega, ?_⟩, by omega, ?_⟩
  · unfold Cs.degree
    simp [Cs.permRequiredDegree]
  · calc 2 ^ k * (cs.degree - 1) ≤ 2 ^ k * 2 ^ 5 :=
        Nat.mul_le_mul_left _ (by have := h1.degree; omega)
      _ = 2 ^ (k + 5) := (pow_add 2 k 5).symm
      _ ≤ 2 ^ c.S := Nat.pow_le_pow_right (by decide) hk5
  · rw [h1.numSelectors]
    exact hsel _

end Verif.EndToEnd.EccExample
