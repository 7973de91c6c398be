import Verif.Rows.Prover

/-!
# C30: the mock prover
-/

namespace Verif.Rows

open Verif.Assigned (Assigned)
open Verif.Cs (Column Kind Cs)
open Verif.Expr (Sel)

variable {F : Type} [Field F] [DecidableEq F] {columns : List Column} {n : ℕ}

/-- A written cell. -/
def cellOf (default : Cell F) (w : Option (Assigned F)) : Cell F :=
  (w.map toCell).getD default

/-- The recorded assignments after the calls, from the specification. -/
structure Mock.After (cs : Cs F) (n : ℕ) (inst : List (List F)) (ops : List (Op F))
    (s : Mock F cs.permutation n) : Prop where
  usable : s.usable = n - (cs.blindingFactors + 1)
  fixed : s.fixed = grid cs.numFixed n fun c r =>
    cellOf .unassigned (lastWrite (fixedWrite (n - (cs.blindingFactors + 1)) c r) ops)
  advice : s.advice = grid cs.numAdvice n fun c r =>
    cellOf (if r < n - (cs.blindingFactors + 1) then .unassigned else .poison r)
      (lastWrite (adviceWrite (n - (cs.blindingFactors + 1)) c r) ops)
  inst : s.inst = inst.map (padInstance n)
  selectors : s.selectors = grid cs.numSelectors n fun i r =>
    ops.any (enables (n - (cs.blindingFactors + 1)) i r)
  perm : s.perm = Copy.run (Copy.new cs.permutation n)
    (ops.filterMap (copyCall (n - (cs.blindingFactors + 1))))

variable {cs : Cs F} {inst : List (List F)} {ops : List (Op F)} {s : Mock F cs.permutation n}

/-- A call that writes nothing, or only to the bookkeeping of regions. -/
theorem Mock.After.same (h : Mock.After cs n inst ops s) {s' : Mock F cs.permutation n} {op : Op F}
    (h0 : s'.usable = s.usable) (h1 : s'.fixed = s.fixed) (h2 : s'.advice = s.advice)
    (h3 : s'.inst = s.inst) (h4 : s'.selectors = s.selectors) (h5 : s'.perm = s.perm)
    (hf : ∀ c < cs.numFixed, ∀ r < n, fixedWrite (n - (cs.blindingFactors + 1)) c r op = none)
    (ha : ∀ c < cs.numAdvice, ∀ r < n, adviceWrite (n - (cs.blindingFactors + 1)) c r op = none)
    (he : ∀ i < cs.numSelectors, ∀ r < n, enables (n - (cs.blindingFactors + 1)) i r op = false)
    (hc : copyCall (n - (cs.blindingFactors + 1)) op = none) :
    Mock.After cs n inst (ops ++ [op]) s' where
  usable := h0.trans h.usable
  fixed := by
    rw [h1, h.fixed]
    refine grid_congr fun c hc r hr => ?_
    rw [lastWrite_snoc, hf c hc r hr, Option.none_or]
  advice := by
    rw [h2, h.advice]
    refine grid_congr fun c hc r hr => ?_
    rw [lastWrite_snoc, ha c hc r hr, Option.none_or]
  inst := h3.trans h.inst
  selectors := by
    rw [h4, h.selectors]
    refine grid_congr fun c hc r hr => ?_
    rw [List.any_append, List.any_cons, List.any_nil, he c hc r hr, Bool.or_false, Bool.or_false]
  perm := by
    rw [h5, h.perm, List.filterMap_append, List.filterMap_cons, hc, List.filterMap_nil,
      List.append_nil]

theorem cellOf_some (d : Cell F) (v : Assigned F) (w : Option (Assigned F)) :
    cellOf d ((some v).or w) = toCell v := rfl

/-- One assignment to a grid of cells. -/
theorem setCell_cells (m : ℕ) (d : ℕ → ℕ → Cell F) (w : ℕ → ℕ → Option (Assigned F))
    (c r : ℕ) (v : Assigned F) :
    setCell (grid m n fun a b => cellOf (d a b) (w a b)) c r (some (toCell v)) =
      if c < m ∧ r < n then
        .ok (grid m n fun a b =>
          cellOf (d a b) ((if a = c ∧ b = r then some v else none).or (w a b)))
      else .error .bounds := by
  rw [setCell_grid]
  by_cases h : c < m ∧ r < n
  · rw [if_pos h, if_pos h]
    congr 1
    refine grid_congr fun a _ b _ => ?_
    by_cases hab : a = c ∧ b = r
    · rw [if_pos hab, if_pos hab, cellOf_some]
    · rw [if_neg hab, if_neg hab, Option.none_or]
  · rw [if_neg h, if_neg h]

/-- The loop of `fill_from_row` on a grid: it succeeds exactly with a known value and an existing
column, and otherwise touches no cell. -/
theorem fillLoop_spec (m : ℕ) (c : ℕ) (v : Option (Assigned F)) (d : ℕ → ℕ → Cell F) :
    ∀ (rows : List ℕ) (w : ℕ → ℕ → Option (Assigned F)) (s : Mock F columns n),
      (∀ r ∈ rows, r < s.usable ∧ r < n) →
      s.fixed = grid m n (fun a b => cellOf (d a b) (w a b)) →
      ∃ s' res, Mock.fillLoop c v rows s = some (s', res) ∧ s'.usable = s.usable ∧
        s'.advice = s.advice ∧ s'.inst = s.inst ∧ s'.selectors = s.selectors ∧ s'.perm = s.perm ∧
        res ≠ .error .notEnoughRows ∧
        s'.fixed = grid m n (fun a b =>
          cellOf (d a b) ((if a = c ∧ b ∈ rows then v else none).or (w a b))) := by
  intro rows
  induction rows with
  | nil =>
    intro w s _ hs
    refine ⟨s, _, rfl, rfl, rfl, rfl, rfl, rfl, by simp, ?_⟩
    rw [hs]
    refine grid_congr fun a _ b _ => ?_
    simp
  | cons r rows ih =>
    intro w s hrows hs
    obtain ⟨hr1, hr2⟩ := hrows r (by simp)
    rw [Mock.fillLoop, Mock.assignFixed, if_neg (by simpa using hr1)]
    dsimp only
    rw [show (s.touch ⟨.fixed, c⟩ r).fixed = s.fixed from rfl, hs]
    rcases v with _ | v
    · refine ⟨s.touch ⟨.fixed, c⟩ r, .error .synthesis, rfl, rfl, rfl, rfl, rfl, rfl, by simp, ?_⟩
      rw [show (s.touch ⟨.fixed, c⟩ r).fixed = s.fixed from rfl, hs]
      refine grid_congr fun a _ b _ => ?_
      simp
    · rw [Option.map_some, setCell_cells]
      by_cases hc : c < m
      · rw [if_pos ⟨hc, hr2⟩]
        simp only [update, Option.bind_some]
        obtain ⟨s', res, h0, h1, h2, h3, h4, h5, h6, h7⟩ := ih
          (fun a b => (if a = c ∧ b = r then some v else none).or (w a b))
          { s.touch ⟨.fixed, c⟩ r with fixed := (grid m n fun a b =>
            cellOf (d a b) ((if a = c ∧ b = r then some v else none).or (w a b))) }
          (fun r' hr' => hrows r' (by simp [hr'])) rfl
        refine ⟨s', res, h0, h1, h2, h3, h4, h5, h6, ?_⟩
        rw [h7]
        refine grid_congr fun a _ b _ => ?_
        congr 1
        by_cases ha : a = c
        · by_cases hb : b ∈ rows
          · simp [ha, hb]
          · by_cases hbr : b = r
            · subst hbr; simp [ha, hb]
            · simp [ha, hb, hbr]
        · simp [ha]
      · rw [if_neg (by tauto)]
        refine ⟨s.touch ⟨.fixed, c⟩ r, .error .bounds, rfl, rfl, rfl, rfl, rfl, rfl, by simp, ?_⟩
        rw [show (s.touch ⟨.fixed, c⟩ r).fixed = s.fixed from rfl, hs]
        refine grid_congr fun a ha b _ => ?_
        rw [if_neg (by rintro ⟨rfl, -⟩; exact hc ha), Option.none_or]

theorem Mock.step_after (h : Mock.After cs n inst ops s) (op : Op F) (r : Mock F cs.permutation n × _)
    (hstep : s.step op = some r) : Mock.After cs n inst (ops ++ [op]) r.1 := by
  have hlt : ∀ {r}, r < s.usable → r < n := by
    intro r hr; rw [h.usable] at hr; omega
  cases op with
  | enter =>
    simp only [Mock.step] at hstep
    split_ifs at hstep
    cases hstep
    exact h.same rfl rfl rfl rfl rfl rfl (fun _ _ _ _ => rfl) (fun _ _ _ _ => rfl)
      (fun _ _ _ _ => rfl) rfl
  | exit =>
    simp only [Mock.step, Option.map_eq_some_iff] at hstep
    obtain ⟨_, -, rfl⟩ := hstep
    exact h.same rfl rfl rfl rfl rfl rfl (fun _ _ _ _ => rfl) (fun _ _ _ _ => rfl)
      (fun _ _ _ _ => rfl) rfl
  | query c row =>
    have : r.1 = s := by
      simp only [Mock.step] at hstep
      split_ifs at hstep <;> cases hstep <;> rfl
    rw [this]
    exact h.same rfl rfl rfl rfl rfl rfl (fun _ _ _ _ => rfl) (fun _ _ _ _ => rfl)
      (fun _ _ _ _ => rfl) rfl
  | selector sel row =>
    simp only [Mock.step] at hstep
    by_cases hr : row < s.usable
    swap
    · rw [if_pos hr] at hstep
      cases hstep
      refine h.same rfl rfl rfl rfl rfl rfl (fun _ _ _ _ => rfl) (fun _ _ _ _ => rfl) ?_ rfl
      intro i _ b _
      rw [h.usable] at hr
      simp only [enables, decide_eq_false_iff_not]
      rintro ⟨-, rfl, h⟩; exact hr h
    rw [if_neg (by simpa using hr), Mock.enable] at hstep
    rcases hcur : s.current with _ | reg
    · rw [hcur] at hstep; cases hstep
    rw [hcur, h.selectors] at hstep
    dsimp only at hstep
    rw [setSelector_grid _ _ _ _ _ (hlt hr)] at hstep
    split_ifs at hstep with hi
    swap
    · cases hstep
    cases hstep
    refine ⟨h.usable, ?_, ?_, h.inst, ?_, ?_⟩
    · rw [h.fixed]
      exact grid_congr fun a _ b _ => by rw [lastWrite_snoc]; rfl
    · rw [h.advice]
      exact grid_congr fun a _ b _ => by rw [lastWrite_snoc]; rfl
    · refine grid_congr fun a _ b _ => ?_
      rw [List.any_append, List.any_cons, List.any_nil, Bool.or_false]
      rw [h.usable] at hr
      by_cases hab : a = sel.index ∧ b = row
      · obtain ⟨rfl, rfl⟩ := hab
        simp [enables, hr]
      · rw [if_neg hab]
        simp only [enables]
        rw [decide_eq_false (by rintro ⟨rfl, rfl, -⟩; exact hab ⟨rfl, rfl⟩), Bool.or_false]
    · rw [h.perm, List.filterMap_append]
      exact congrArg _ (List.append_nil _).symm
  | advice c row v =>
    simp only [Mock.step] at hstep
    by_cases hr : row < s.usable
    swap
    · rw [if_pos hr] at hstep
      cases hstep
      refine h.same rfl rfl rfl rfl rfl rfl (fun _ _ _ _ => rfl) ?_ (fun _ _ _ _ => rfl) rfl
      intro i _ b _
      rw [h.usable] at hr
      simp only [adviceWrite]
      rw [if_neg (by omega)]
    rw [if_neg (by simpa using hr), show (s.touch ⟨.advice, c⟩ row).advice = s.advice from rfl,
      h.advice] at hstep
    rw [h.usable] at hr
    rcases v with _ | v
    · cases hstep
      refine h.same rfl rfl rfl rfl rfl rfl (fun _ _ _ _ => rfl) ?_ (fun _ _ _ _ => rfl) rfl
      intro i _ b _
      simp [adviceWrite]
    rw [Option.map_some, setCell_cells] at hstep
    by_cases hc : c < cs.numAdvice
    · rw [if_pos ⟨hc, by omega⟩] at hstep
      cases hstep
      refine ⟨h.usable, ?_, ?_, h.inst, ?_, ?_⟩
      · rw [show (s.touch ⟨.advice, c⟩ row).fixed = s.fixed from rfl, h.fixed]
        exact grid_congr fun a _ b _ => by rw [lastWrite_snoc]; rfl
      · refine grid_congr fun a _ b _ => ?_
        rw [lastWrite_snoc]
        congr 2
        simp only [adviceWrite]
        by_cases hab : a = c ∧ b = row
        · obtain ⟨rfl, rfl⟩ := hab
          rw [if_pos ⟨rfl, rfl⟩, if_pos ⟨rfl, rfl, hr⟩]
        · rw [if_neg hab, if_neg (by tauto)]
      · rw [show (s.touch ⟨.advice, c⟩ row).selectors = s.selectors from rfl, h.selectors]
        exact grid_congr fun a _ b _ => by simp [enables]
      · rw [show (s.touch ⟨.advice, c⟩ row).perm = s.perm from rfl, h.perm, List.filterMap_append]
        exact congrArg _ (List.append_nil _).symm
    · rw [if_neg (by tauto)] at hstep
      cases hstep
      refine h.same rfl rfl rfl rfl rfl rfl (fun _ _ _ _ => rfl) ?_ (fun _ _ _ _ => rfl) rfl
      intro i hi b _
      simp only [adviceWrite]
      rw [if_neg (by rintro ⟨rfl, -⟩; exact hc hi)]
  | fixed c row v =>
    simp only [Mock.step, Mock.assignFixed] at hstep
    by_cases hr : row < s.usable
    swap
    · rw [if_pos hr] at hstep
      cases hstep
      refine h.same rfl rfl rfl rfl rfl rfl ?_ (fun _ _ _ _ => rfl) (fun _ _ _ _ => rfl) rfl
      intro i _ b _
      rw [h.usable] at hr
      simp only [fixedWrite]
      rw [if_neg (by omega)]
    rw [if_neg (by simpa using hr), show (s.touch ⟨.fixed, c⟩ row).fixed = s.fixed from rfl,
      h.fixed] at hstep
    rw [h.usable] at hr
    rcases v with _ | v
    · cases hstep
      refine h.same rfl rfl rfl rfl rfl rfl ?_ (fun _ _ _ _ => rfl) (fun _ _ _ _ => rfl) rfl
      intro i _ b _
      simp [fixedWrite]
    rw [Option.map_some, setCell_cells _ (fun _ _ => Cell.unassigned)] at hstep
    by_cases hc : c < cs.numFixed
    · rw [if_pos ⟨hc, by omega⟩] at hstep
      cases hstep
      refine ⟨h.usable, ?_, ?_, h.inst, ?_, ?_⟩
      · refine grid_congr fun a _ b _ => ?_
        rw [lastWrite_snoc]
        congr 2
        simp only [fixedWrite]
        by_cases hab : a = c ∧ b = row
        · obtain ⟨rfl, rfl⟩ := hab
          rw [if_pos ⟨rfl, rfl⟩, if_pos ⟨rfl, rfl, hr⟩]
        · rw [if_neg hab, if_neg (by tauto)]
      · rw [show (s.touch ⟨.fixed, c⟩ row).advice = s.advice from rfl, h.advice]
        exact grid_congr fun a _ b _ => by rw [lastWrite_snoc]; rfl
      · rw [show (s.touch ⟨.fixed, c⟩ row).selectors = s.selectors from rfl, h.selectors]
        exact grid_congr fun a _ b _ => by simp [enables]
      · rw [show (s.touch ⟨.fixed, c⟩ row).perm = s.perm from rfl, h.perm, List.filterMap_append]
        exact congrArg _ (List.append_nil _).symm
    · rw [if_neg (by tauto)] at hstep
      cases hstep
      refine h.same rfl rfl rfl rfl rfl rfl ?_ (fun _ _ _ _ => rfl) (fun _ _ _ _ => rfl) rfl
      intro i hi b _
      simp only [fixedWrite]
      rw [if_neg (by rintro ⟨rfl, -⟩; exact hc hi)]
  | copy lc lr rc rr =>
    simp only [Mock.step] at hstep
    by_cases hr : ¬ lr < s.usable ∨ ¬ rr < s.usable
    · rw [if_pos hr] at hstep
      cases hstep
      refine h.same rfl rfl rfl rfl rfl rfl (fun _ _ _ _ => rfl) (fun _ _ _ _ => rfl)
        (fun _ _ _ _ => rfl) ?_
      rw [h.usable] at hr
      simp only [copyCall]
      rw [if_neg (by tauto)]
    rw [if_neg hr] at hstep
    rw [h.usable] at hr
    have hcall : List.filterMap (copyCall (n - (cs.blindingFactors + 1)))
        [Op.copy (F := F) lc lr rc rr] = [⟨lc, lr, rc, rr⟩] := by
      have : lr < n - (cs.blindingFactors + 1) ∧ rr < n - (cs.blindingFactors + 1) := by tauto
      simp [copyCall, this]
    have hx : r.1 = { s with
        perm := Copy.run (Copy.new cs.permutation n)
          (ops.filterMap (copyCall (n - (cs.blindingFactors + 1))) ++ [⟨lc, lr, rc, rr⟩]) } := by
      rw [copyRun_snoc]
      have hp := h.perm
      rw [← hp]
      dsimp only
      unfold permCopy at hstep
      generalize Copy.copy _ lc lr rc rr = res at hstep ⊢
      rcases res with _ | p
      · cases hstep; rfl
      · cases hstep; rfl
    rw [hx]
    refine ⟨h.usable, ?_, ?_, h.inst, ?_, ?_⟩
    · rw [h.fixed]
      exact grid_congr fun a _ b _ => by rw [lastWrite_snoc]; rfl
    · rw [h.advice]
      exact grid_congr fun a _ b _ => by rw [lastWrite_snoc]; rfl
    · rw [h.selectors]
      exact grid_congr fun a _ b _ => by simp [enables]
    · rw [List.filterMap_append, hcall]
  | fill c row v =>
    simp only [Mock.step] at hstep
    by_cases hr : row < s.usable
    swap
    · rw [if_pos hr] at hstep
      cases hstep
      refine h.same rfl rfl rfl rfl rfl rfl ?_ (fun _ _ _ _ => rfl) (fun _ _ _ _ => rfl) rfl
      intro i _ b _
      rw [h.usable] at hr
      simp only [fixedWrite]
      rw [if_neg (by omega)]
    rw [if_neg (by simpa using hr)] at hstep
    obtain ⟨s', res, h0, h1, h2, h3, h4, h5, -, h7⟩ := fillLoop_spec cs.numFixed c v
      (fun _ _ => Cell.unassigned) ((List.range s.usable).drop row)
      (fun a b => lastWrite (fixedWrite (n - (cs.blindingFactors + 1)) a b) ops) s
      (fun r' hr' => ⟨(mem_drop_range.1 hr').2, hlt (mem_drop_range.1 hr').2⟩) h.fixed
    rw [h0] at hstep
    cases hstep
    refine ⟨h1.trans h.usable, ?_, ?_, h3.trans h.inst, ?_, ?_⟩
    · rw [h7]
      refine grid_congr fun a _ b _ => ?_
      rw [lastWrite_snoc]
      congr 2
      simp only [fixedWrite, mem_drop_range, h.usable]
    · show s'.advice = _
      rw [h2, h.advice]
      exact grid_congr fun a _ b _ => by rw [lastWrite_snoc]; rfl
    · show s'.selectors = _
      rw [h4, h.selectors]
      exact grid_congr fun a _ b _ => by simp [enables]
    · show s'.perm = _
      rw [h5, h.perm, List.filterMap_append]
      exact congrArg _ (List.append_nil _).symm

/-- C30, mock proving: after any calls the recorded assignments are the last writes to each cell, the
selectors enabled and the copies requested, all on usable rows; unusable advice cells stay poisoned. -/
theorem mock_run (cs : Cs F) (n : ℕ) (inst : List (List F)) (ops : List (Op F))
    (s₀ s : Mock F cs.permutation n) (h0 : Mock.init cs n inst = some s₀)
    (h : runOps Mock.step s₀ ops = some s) : Mock.After cs n inst ops s := by
  induction ops using List.reverseRecOn generalizing s with
  | nil =>
    cases h
    simp only [Mock.init] at h0
    split_ifs at h0
    cases h0
    refine ⟨rfl, grid_replicate _ _ _, ?_, rfl, grid_replicate _ _ _, rfl⟩
    show List.replicate cs.numAdvice (poisoned n _) =
      (List.range cs.numAdvice).map fun _ => poisoned n _
    rw [List.map_const', List.length_range]
  | append_singleton ops op ih =>
    rw [runOps_snoc, Option.bind_eq_some_iff] at h
    obtain ⟨s', h1, h2⟩ := h
    rw [Option.map_eq_some_iff] at h2
    obtain ⟨r, hr, rfl⟩ := h2
    exact Mock.step_after (ih s' h1) op r hr

/-- C30, mock proving: every call is refused for lack of rows exactly when it names a row that is not
usable, and then the state is left as it was. -/
theorem mock_rows (cs : Cs F) (n : ℕ) (inst : List (List F)) (ops : List (Op F))
    (s₀ s : Mock F cs.permutation n) (h0 : Mock.init cs n inst = some s₀)
    (h : runOps Mock.step s₀ ops = some s) (op : Op F) :
    ((∃ s', s.step op = some (s', .error .notEnoughRows)) ↔
      OutOfRows (n - (cs.blindingFactors + 1)) op) ∧
    ∀ s', s.step op = some (s', .error .notEnoughRows) → s' = s := by
  have hs := mock_run cs n inst ops s₀ s h0 h
  rw [← hs.usable]
  cases op with
  | enter =>
    simp only [Mock.step, OutOfRows]
    split_ifs <;> simp
  | exit => simp [Mock.step, OutOfRows]
  | query c r =>
    by_cases hr : r < s.usable
    · simp only [Mock.step, OutOfRows, hr, not_true_eq_false, if_false]
      have key : ∀ s', some (s, s.query c r) ≠ some (s', .error .notEnoughRows) := by
        intro s' he
        simp only [Option.some.injEq, Prod.mk.injEq] at he
        have he := he.2
        unfold Mock.query at he
        split at he
        · cases he
        · split at he <;> cases he
      refine ⟨⟨?_, fun h' => by omega⟩, fun s' he => absurd he (key s')⟩
      rintro ⟨s', he⟩
      exact absurd he (key s')
    · simp [Mock.step, OutOfRows, hr, Nat.not_lt.1 hr, eq_comm]
  | selector sel r =>
    by_cases hr : r < s.usable
    · simp only [Mock.step, OutOfRows, hr, not_true_eq_false, if_false]
      have key : ∀ s', s.enable sel r ≠ some (s', .error .notEnoughRows) := by
        intro s' he
        unfold Mock.enable at he
        split at he
        · cases he
        · simp at he
      refine ⟨⟨?_, fun h' => by omega⟩, fun s' he => absurd he (key s')⟩
      rintro ⟨s', he⟩
      exact absurd he (key s')
    · simp [Mock.step, OutOfRows, hr, Nat.not_lt.1 hr, eq_comm]
  | advice c r v =>
    by_cases hr : r < s.usable
    · simp only [Mock.step, OutOfRows, hr, not_true_eq_false, if_false]
      refine ⟨⟨?_, fun h' => by omega⟩, fun s' he => ?_⟩
      · rintro ⟨s', he⟩
        exact absurd rfl (setCell_err (update_err he).2)
      · exact absurd rfl (setCell_err (update_err he).2)
    · simp [Mock.step, OutOfRows, hr, Nat.not_lt.1 hr, eq_comm]
  | fixed c r v =>
    by_cases hr : r < s.usable
    · simp only [Mock.step, Mock.assignFixed, OutOfRows, hr, not_true_eq_false, if_false]
      refine ⟨⟨?_, fun h' => by omega⟩, fun s' he => ?_⟩
      · rintro ⟨s', he⟩
        exact absurd rfl (setCell_err (update_err he).2)
      · exact absurd rfl (setCell_err (update_err he).2)
    · simp [Mock.step, Mock.assignFixed, OutOfRows, hr, Nat.not_lt.1 hr, eq_comm]
  | copy lc lr rc rr =>
    by_cases hr : ¬ lr < s.usable ∨ ¬ rr < s.usable
    · have h' : s.usable ≤ lr ∨ s.usable ≤ rr := by omega
      simp only [Mock.step, OutOfRows, hr, if_true]
      simp [h', eq_comm]
    · simp only [Mock.step, OutOfRows, hr, if_false]
      refine ⟨⟨?_, fun h' => by omega⟩, fun s' he => ?_⟩
      · rintro ⟨s', he⟩
        exact absurd rfl (permCopy_err (update_err he).2)
      · exact absurd rfl (permCopy_err (update_err he).2)
  | fill c r v =>
    by_cases hr : r < s.usable
    · simp only [Mock.step, OutOfRows, hr, not_true_eq_false, if_false]
      obtain ⟨s', res, h0, -, -, -, -, -, h6, -⟩ := fillLoop_spec cs.numFixed c v
        (fun _ _ => Cell.unassigned) ((List.range s.usable).drop r)
        (fun a b => lastWrite (fixedWrite (n - (cs.blindingFactors + 1)) a b) ops) s
        (fun r' hr' => ⟨(mem_drop_range.1 hr').2, by
          have := (mem_drop_range.1 hr').2; rw [hs.usable] at this; omega⟩) hs.fixed
      rw [h0]
      refine ⟨⟨?_, fun h' => by omega⟩, fun s'' he => ?_⟩
      · rintro ⟨s'', he⟩
        simp only [Option.some.injEq, Prod.mk.injEq] at he
        exact absurd he.2 h6
      · simp only [Option.some.injEq, Prod.mk.injEq] at he
        exact absurd he.2 h6
    · simp [Mock.step, OutOfRows, hr, Nat.not_lt.1 hr, eq_comm]

/-- C30, mock proving: after any calls, on the rows from `n - (blinding_factors + 1)` on all fixed
cells are unassigned, all advice cells poisoned, all selectors off and every cell is its own copy
cycle. -/
theorem mock_untouched (cs : Cs F) (n : ℕ) (inst : List (List F)) (ops : List (Op F))
    (s₀ s : Mock F cs.permutation n) (h0 : Mock.init cs n inst = some s₀)
    (h : runOps Mock.step s₀ ops = some s) (r : ℕ) (hr : n - (cs.blindingFactors + 1) ≤ r)
    (hn : r < n) :
    (∀ c < cs.numFixed, (s.fixed[c]?).bind (·[r]?) = some .unassigned) ∧
    (∀ c < cs.numAdvice, (s.advice[c]?).bind (·[r]?) = some (.poison r)) ∧
    (∀ i < cs.numSelectors, (s.selectors[i]?).bind (·[r]?) = some false) ∧
    ∀ c, s.perm.mapping (c, ⟨r, hn⟩) = (c, ⟨r, hn⟩) := by
  have hs := mock_run cs n inst ops s₀ s h0 h
  refine ⟨fun c hc => ?_, fun c hc => ?_, fun i hi => ?_, fun c => ?_⟩
  · rw [hs.fixed, grid_cell hc hn, lastWrite_none _ _ fun op _ => fixedWrite_out hr op]
    rfl
  · rw [hs.advice, grid_cell hc hn, lastWrite_none _ _ fun op _ => adviceWrite_out hr op,
      if_neg (by omega)]
    rfl
  · rw [hs.selectors, grid_cell hi hn, Option.some.injEq, List.any_eq_false]
    intro op _
    rw [enables_out hr op]
    simp
  · rw [hs.perm]
    exact copies_out _ ops _ hr

/-! ### A concrete case -/

/-- Two advice columns (one queried at two rows), a fixed column and an instance column, two of them
in the permutation, one selector. -/
def demoCs : Cs (ZMod 13) where
  numFixed := 1
  numAdvice := 2
  numInstance := 1
  numSelectors := 1
  adviceQueries := [(0, 0), (0, 1), (1, 0)]
  numAdviceQueries := [2, 1]
  permutation := [⟨.advice, 0⟩, ⟨.advice, 1⟩]

/-- On 16 rows, 10 are usable.  Calls on row 10 are refused; an overwritten cell keeps the later value. -/
def demoOps : List (Op (ZMod 13)) :=
  [.enter, .selector ⟨0, true⟩ 9, .selector ⟨0, true⟩ 10, .advice 0 9 (some (.trivial 5)),
    .advice 0 9 (some (.rational 1 2)), .advice 0 10 (some (.trivial 5)), .exit,
    .fixed 0 2 (some (.trivial 3)), .fill 0 8 (some (.trivial 4)), .fill 0 10 (some (.trivial 4)),
    .copy ⟨.advice, 0⟩ 9 ⟨.advice, 1⟩ 0, .copy ⟨.advice, 0⟩ 9 ⟨.advice, 1⟩ 10]

example :
    ((runOps Keygen.step (Keygen.init demoCs 16) demoOps).map fun s =>
      (s.usable, s.fixed, s.selectors)) =
    some (10, [[.trivial 0, .trivial 0, .trivial 3, .trivial 0, .trivial 0, .trivial 0, .trivial 0,
      .trivial 0, .trivial 4, .trivial 4, .trivial 0, .trivial 0, .trivial 0, .trivial 0, .trivial 0,
      .trivial 0]], [List.replicate 9 false ++ [true] ++ List.replicate 6 false]) := by
  decide +kernel

example :
    ((runOps Witness.step (Witness.init demoCs 16 [[1, 2]]) demoOps).map fun s =>
      s.finish fun c r => (c + r : ℕ)) =
    some [[0, 0, 0, 0, 0, 0, 0, 0, 0, 7, 10, 11, 12, 0, 1, 2],
      [0, 0, 0, 0, 0, 0, 0, 0, 0, 0, 11, 12, 0, 1, 2, 3]] := by
  decide +kernel

example :
    (((Mock.init demoCs 16 [[1, 2]]).bind fun s => runOps Mock.step s demoOps).map fun s =>
      (s.advice[0]?, s.selectors, s.regions.length)) =
    some (some (List.replicate 9 .unassigned ++ [.assigned 7] ++
      [.poison 10, .poison 11, .poison 12, .poison 13, .poison 14, .poison 15]),
      [List.replicate 9 false ++ [true] ++ List.replicate 6 false], 1) := by
  decide +kernel

end Verif.Rows
