import Verif.Rows.Props

/-!
# C30: the prover
-/

namespace Verif.Rows

open Verif.Assigned (Assigned)
open Verif.Cs (Column Kind Cs)
open Verif.Expr (Sel)

variable {F : Type}

/-- The state after the calls, from the specification. -/
def Witness.after [Zero F] (cs : Cs F) (n : ℕ) (instances : List (List F)) (ops : List (Op F)) :
    Witness F :=
  { usable := n - (cs.blindingFactors + 1)
    advice := grid cs.numAdvice n fun c r =>
      (lastWrite (adviceWrite (n - (cs.blindingFactors + 1)) c r) ops).getD (.trivial 0)
    instances := instances }

theorem Witness.step_after [Zero F] (cs : Cs F) (n : ℕ) (instances : List (List F))
    (ops : List (Op F)) (op : Op F) :
    ∃ res, (Witness.after cs n instances ops).step op =
      some (Witness.after cs n instances (ops ++ [op]), res) := by
  have same : ∀ op : Op F, (∀ c < cs.numAdvice, ∀ r < n,
      adviceWrite (n - (cs.blindingFactors + 1)) c r op = none) →
      Witness.after cs n instances ops = Witness.after cs n instances (ops ++ [op]) := by
    intro op h
    unfold Witness.after
    congr 1
    refine grid_congr fun c hc r hr => ?_
    rw [lastWrite_snoc, h c hc r hr, Option.none_or]
  cases op with
  | enter => exact ⟨_, by rw [← same _ fun _ _ _ _ => rfl]; rfl⟩
  | exit => exact ⟨_, by rw [← same _ fun _ _ _ _ => rfl]; rfl⟩
  | selector s r => exact ⟨_, by rw [← same _ fun _ _ _ _ => rfl]; rfl⟩
  | fixed c r v => exact ⟨_, by rw [← same _ fun _ _ _ _ => rfl]; rfl⟩
  | copy lc lr rc rr => exact ⟨_, by rw [← same _ fun _ _ _ _ => rfl]; rfl⟩
  | fill c r v => exact ⟨_, by rw [← same _ fun _ _ _ _ => rfl]; rfl⟩
  | query c r =>
    rw [← same _ fun _ _ _ _ => rfl, Witness.step]
    by_cases h : r < (Witness.after cs n instances ops).usable
    · rw [if_neg (by simpa using h)]; exact ⟨_, rfl⟩
    · rw [if_pos h]; exact ⟨_, rfl⟩
  | advice c r v =>
    rw [Witness.step, show (Witness.after cs n instances ops).usable
      = n - (cs.blindingFactors + 1) from rfl]
    by_cases h : r < n - (cs.blindingFactors + 1)
    swap
    · rw [if_pos h, ← same]
      · exact ⟨_, rfl⟩
      · intro a _ b _
        simp only [adviceWrite]
        rw [if_neg (by omega)]
    rw [if_neg (not_not.2 h)]
    rcases v with _ | v
    · rw [← same]
      · exact ⟨_, rfl⟩
      · intro a _ b _
        simp [adviceWrite]
    rw [show (Witness.after cs n instances ops).advice = grid cs.numAdvice n fun c r =>
      (lastWrite (adviceWrite (n - (cs.blindingFactors + 1)) c r) ops).getD (.trivial 0) from rfl,
      setCell_grid]
    by_cases hc : c < cs.numAdvice
    · rw [if_pos ⟨hc, by omega⟩]
      refine ⟨.ok .done, ?_⟩
      simp only [update]
      congr 2
      unfold Witness.after
      congr 1
      refine grid_congr fun a _ b _ => ?_
      rw [lastWrite_snoc]
      by_cases hab : a = c ∧ b = r
      · obtain ⟨rfl, rfl⟩ := hab
        simp [adviceWrite, h]
      · rw [if_neg hab]
        simp only [adviceWrite]
        rw [if_neg (by tauto), Option.none_or]
    · rw [if_neg (by tauto), ← same]
      · exact ⟨_, rfl⟩
      · intro a ha b _
        simp only [adviceWrite]
        rw [if_neg (by rintro ⟨rfl, -⟩; exact hc ha)]

/-- C30, proving: the calls never panic, and the witness after any calls is the last write to each
advice cell on a usable row. -/
theorem witness_run [Zero F] (cs : Cs F) (n : ℕ) (instances : List (List F)) (ops : List (Op F)) :
    runOps Witness.step (Witness.init cs n instances) ops =
      some (Witness.after cs n instances ops) := by
  induction ops using List.reverseRecOn with
  | nil =>
    rw [runOps]
    unfold Witness.init Witness.after
    rw [grid_replicate]
    rfl
  | append_singleton ops op ih =>
    rw [runOps_snoc, ih]
    obtain ⟨res, h⟩ := Witness.step_after cs n instances ops op
    simp only [Option.bind_some, h, Option.map_some]

/-- C30, proving: a call the prover reads is refused for lack of rows exactly when it names a row that
is not usable; whatever the error, the state is left as it was; the calls it does not read change
nothing. -/
theorem witness_rows (s : Witness F) (op : Op F) :
    (ProverReads op →
      ((∃ s', s.step op = some (s', .error .notEnoughRows)) ↔ OutOfRows s.usable op)) ∧
    (∀ s' e, s.step op = some (s', .error e) → s' = s) ∧
    (¬ ProverReads op → s.step op = some (s, .ok .done)) := by
  cases op with
  | enter => simp [Witness.step, ProverReads]
  | exit => simp [Witness.step, ProverReads]
  | selector => simp [Witness.step, ProverReads]
  | fixed => simp [Witness.step, ProverReads]
  | copy => simp [Witness.step, ProverReads]
  | fill => simp [Witness.step, ProverReads]
  | query c r =>
    by_cases h : r < s.usable
    · simp only [Witness.step, ProverReads, OutOfRows, h, not_true_eq_false, if_false]
      refine ⟨fun _ => ⟨?_, fun h' => by omega⟩, fun s' e he => ?_, by simp⟩
      · rintro ⟨s', he⟩
        exfalso
        simp only [Option.some.injEq, Prod.mk.injEq] at he
        have he := he.2
        unfold Witness.query at he
        split at he
        · cases he
        · split at he <;> cases he
      · simp only [Option.some.injEq, Prod.mk.injEq] at he
        exact he.1.symm
    · simp [Witness.step, ProverReads, OutOfRows, h, Nat.not_lt.1 h, eq_comm]
  | advice c r v =>
    by_cases h : r < s.usable
    · simp only [Witness.step, ProverReads, OutOfRows, h, not_true_eq_false, if_false]
      refine ⟨fun _ => ⟨?_, fun h' => by omega⟩, fun s' e he => (update_err he).1, by simp⟩
      rintro ⟨s', he⟩
      exact absurd rfl (setCell_err (update_err he).2)
    · simp [Witness.step, ProverReads, OutOfRows, h, Nat.not_lt.1 h, eq_comm]

theorem blindColumn_get (start : ℕ) (random : ℕ → F) (col : List F) (r : ℕ) (hr : r < col.length) :
    (blindColumn start random col)[r]? = if r < start then col[r]? else some (random r) := by
  unfold blindColumn
  rw [List.getElem?_append]
  by_cases h : r < start
  · rw [if_pos h, if_pos (by simp; omega), List.getElem?_take, if_pos h]
  · rw [if_neg h, if_neg (by simp; omega), List.length_take, Nat.min_eq_left (by omega),
      List.getElem?_mapIdx, List.getElem?_drop]
    rw [show start + (r - start) = r by omega, List.getElem?_eq_getElem hr]
    rfl

/-- C30, proving: after any calls, in the columns committed to, the cells on the rows from
`n - (blinding_factors + 1)` on are the random values, whatever the circuit did; the cells on the other
rows are what the circuit assigned last, or zero. -/
theorem witness_finish [Field F] [DecidableEq F] (cs : Cs F) (n : ℕ) (instances : List (List F))
    (ops : List (Op F)) (random : ℕ → ℕ → F) (s : Witness F)
    (h : runOps Witness.step (Witness.init cs n instances) ops = some s) (c : ℕ)
    (hc : c < cs.numAdvice) (r : ℕ) (hr : r < n) :
    let usable := n - (cs.blindingFactors + 1)
    ((s.finish random)[c]?).bind (·[r]?) = some (if r < usable then
      ((lastWrite (adviceWrite usable c r) ops).getD (.trivial 0)).evaluate else random c r) := by
  intro usable
  rw [witness_run] at h
  cases h
  unfold Witness.finish
  rw [List.getElem?_mapIdx, show (Witness.after cs n instances ops).advice[c]? = _ from grid_col hc]
  simp only [Option.map_some, Option.bind_some]
  rw [blindColumn_get _ _ _ _ (by simpa using hr)]
  show (if r < usable then _ else _) = _
  by_cases hu : r < usable
  · rw [if_pos hu, if_pos hu]
    simp [hr, usable]
  · rw [if_neg hu, if_neg hu]

end Verif.Rows
