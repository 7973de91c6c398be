import Verif.Rows.Lemmas
import Mathlib.Algebra.Field.ZMod
import Verif.Domain.Props

/-!
# C30: assignments never reach the blinding rows

Specification: `OutOfRows` says that a call names a row outside the usable ones; `fixedWrite`,
`adviceWrite`, `Enables`, `copyCall` say, from the call alone, what it writes.  `lastWrite` is the last
of several writes.  The state of every backend after any calls is a function of these.
-/

namespace Verif.Rows

open Verif.Assigned (Assigned)
open Verif.Cs (Column Kind Cs)
open Verif.Expr (Sel)

variable {F V W : Type} {columns : List Column} {n : ℕ}

/-! ### Specification -/

/-- The call names a row that is not usable. -/
def OutOfRows (usable : ℕ) : Op F → Prop
  | .enter => False
  | .exit => False
  | .selector _ row => usable ≤ row
  | .query _ row => usable ≤ row
  | .advice _ row _ => usable ≤ row
  | .fixed _ row _ => usable ≤ row
  | .copy _ lr _ rr => usable ≤ lr ∨ usable ≤ rr
  | .fill _ row _ => usable ≤ row

/-- The calls key generation reads: all but advice assignments. -/
def KeygenReads : Op F → Prop
  | .advice _ _ _ => False
  | _ => True

/-- The calls the prover reads: advice assignments and instance queries. -/
def ProverReads : Op F → Prop
  | .advice _ _ _ => True
  | .query _ _ => True
  | _ => False

/-- What a call writes to the fixed cell of column `c` and row `r`. -/
def fixedWrite (usable c r : ℕ) : Op F → Option (Assigned F)
  | .fixed c' r' v => if c = c' ∧ r = r' ∧ r < usable then v else none
  | .fill c' r' v => if c = c' ∧ r' ≤ r ∧ r < usable then v else none
  | _ => none

/-- What a call writes to the advice cell of column `c` and row `r`. -/
def adviceWrite (usable c r : ℕ) : Op F → Option (Assigned F)
  | .advice c' r' v => if c = c' ∧ r = r' ∧ r < usable then v else none
  | _ => none

/-- The call enables selector `i` on row `r`. -/
def enables (usable i r : ℕ) : Op F → Bool
  | .selector s r' => decide (s.index = i ∧ r' = r ∧ r < usable)
  | _ => false

/-- The copy a call asks for. -/
def copyCall (usable : ℕ) : Op F → Option (Copy.Call Column)
  | .copy lc lr rc rr => if lr < usable ∧ rr < usable then some ⟨lc, lr, rc, rr⟩ else none
  | _ => none

/-- The last write. -/
def lastWrite (w : Op F → Option V) (ops : List (Op F)) : Option V :=
  ops.reverse.findSome? w

/-- Every selector named on a usable row exists. -/
def SelectorsOk (usable m : ℕ) (ops : List (Op F)) : Prop :=
  ∀ op ∈ ops, ∀ s r, op = .selector s r → r < usable → s.index < m

theorem lastWrite_snoc (w : Op F → Option V) (ops : List (Op F)) (op : Op F) :
    lastWrite w (ops ++ [op]) = (w op).or (lastWrite w ops) := by
  unfold lastWrite
  rw [List.reverse_append, List.reverse_singleton, List.singleton_append, List.findSome?_cons]
  rcases w op with _ | v <;> rfl

theorem lastWrite_none (w : Op F → Option V) (ops : List (Op F)) (h : ∀ op ∈ ops, w op = none) :
    lastWrite w ops = none := by
  rw [lastWrite, List.findSome?_eq_none_iff]
  intro op hop
  exact h op (List.mem_reverse.1 hop)

theorem update_ne_none {S T : Type} (s : S) (f : Except Err T) (k : T → S) :
    (update s f k : Out S F) ≠ none := by
  rcases f with _ | _ <;> simp [update]

/-! ### Key generation -/

/-- The state after the calls, from the specification. -/
def Keygen.after [Zero F] (cs : Cs F) (n : ℕ) (ops : List (Op F)) : Keygen F cs.permutation n :=
  let usable := n - (cs.blindingFactors + 1)
  { usable := usable
    fixed := grid cs.numFixed n fun c r =>
      (lastWrite (fixedWrite usable c r) ops).getD (.trivial 0)
    perm := Copy.run (Copy.new cs.permutation n) (ops.filterMap (copyCall usable))
    selectors := grid cs.numSelectors n fun i r => ops.any (enables usable i r) }

/-- What an accepted call leaves. -/
theorem Keygen.step_after [Zero F] (cs : Cs F) (n : ℕ) (ops : List (Op F)) (op : Op F) :
    let usable := n - (cs.blindingFactors + 1)
    (∀ r, (Keygen.after cs n ops).step op = some r → r.1 = Keygen.after cs n (ops ++ [op])) ∧
    ((Keygen.after cs n ops).step op = none ↔
      ∃ s r, op = .selector s r ∧ r < usable ∧ ¬ s.index < cs.numSelectors) := by
  intro usable
  have hus : (Keygen.after cs n ops).usable = usable := rfl
  have hlt : ∀ {r}, r < usable → r < n := by omega
  have same : ∀ op : Op F, (∀ c r, fixedWrite usable c r op = none) → copyCall usable op = none →
      (∀ i r, enables usable i r op = false) →
      Keygen.after cs n (ops ++ [op]) = Keygen.after cs n ops := by
    intro op h1 h2 h3
    unfold Keygen.after
    simp only [lastWrite_snoc, List.filterMap_append, List.any_append, List.any_cons, List.any_nil,
      Bool.or_false]
    congr 1
    · refine grid_congr fun c _ r _ => ?_
      rw [show fixedWrite (n - (cs.blindingFactors + 1)) c r op = none from h1 c r, Option.none_or]
    · rw [show List.filterMap (copyCall (n - (cs.blindingFactors + 1))) [op] = [] by
        rw [List.filterMap_cons, show copyCall (n - (cs.blindingFactors + 1)) op = none from h2]
        rfl, List.append_nil]
    · refine grid_congr fun c _ r _ => ?_
      rw [show enables (n - (cs.blindingFactors + 1)) c r op = false from h3 c r, Bool.or_false]
  cases op with
  | enter =>
    refine ⟨?_, by simp [Keygen.step]⟩
    rintro r h
    cases h
    exact (same _ (fun _ _ => rfl) rfl fun _ _ => rfl).symm
  | exit =>
    refine ⟨?_, by simp [Keygen.step]⟩
    rintro r h
    cases h
    exact (same _ (fun _ _ => rfl) rfl fun _ _ => rfl).symm
  | advice c r v =>
    refine ⟨?_, by simp [Keygen.step]⟩
    rintro r h
    cases h
    exact (same _ (fun _ _ => rfl) rfl fun _ _ => rfl).symm
  | query c r =>
    have hs := same (.query c r) (fun _ _ => rfl) rfl fun _ _ => rfl
    rw [Keygen.step, hs]
    by_cases hr : r < (Keygen.after cs n ops).usable
    · rw [if_neg (by simpa using hr)]; simp
    · rw [if_pos hr]; simp
  | selector s r =>
    rw [Keygen.step, hus]
    by_cases hr : r < usable
    · rw [if_neg (by simpa using hr)]
      have hsel : (Keygen.after cs n ops).selectors
          = grid cs.numSelectors n fun i r => ops.any (enables usable i r) := rfl
      rw [hsel, setSelector_grid _ _ _ _ _ (hlt hr)]
      by_cases hi : s.index < cs.numSelectors
      · rw [if_pos hi]
        refine ⟨?_, by simp [hi]⟩
        intro x hx
        simp only [Option.map_some, Option.some.injEq] at hx
        subst hx
        unfold Keygen.after
        simp only [lastWrite_snoc, List.filterMap_append, List.any_append, List.any_cons,
          List.any_nil, Bool.or_false, fixedWrite, Option.none_or]
        congr 1
        · rw [show List.filterMap (copyCall (n - (cs.blindingFactors + 1)))
            [Op.selector (F := F) s r] = [] from rfl, List.append_nil]
        · refine grid_congr fun a _ b _ => ?_
          show _ = (_ || decide _)
          by_cases h : a = s.index ∧ b = r
          · obtain ⟨rfl, rfl⟩ := h
            have : b < n - (cs.blindingFactors + 1) := hr
            simp [this]
          · rw [if_neg h]
            rw [decide_eq_false (by rintro ⟨rfl, rfl, -⟩; exact h ⟨rfl, rfl⟩), Bool.or_false]
      · rw [if_neg hi]
        refine ⟨by simp, ?_⟩
        simp only [Option.map_none, true_iff]
        exact ⟨s, r, rfl, hr, hi⟩
    · rw [if_pos hr]
      refine ⟨?_, ?_⟩
      · intro x hx
        cases hx
        refine (same _ (fun _ _ => rfl) rfl fun i b => ?_).symm
        simp only [enables, decide_eq_false_iff_not]
        rintro ⟨-, rfl, h⟩; exact hr h
      · simp only [reduceCtorEq, false_iff]
        rintro ⟨s', r', h, h', -⟩
        cases h
        exact hr h'
  | fixed c r v =>
    rw [Keygen.step, hus]
    refine ⟨?_, ?_⟩
    swap
    · split_ifs <;> simp [update_ne_none]
    intro x hx
    by_cases hr : r < usable
    swap
    · rw [if_pos hr] at hx
      cases hx
      refine (same _ (fun a b => ?_) rfl fun _ _ => rfl).symm
      simp only [fixedWrite]
      rw [if_neg]
      rintro ⟨-, rfl, h⟩; exact hr h
    rw [if_neg (by simpa using hr)] at hx
    have hfix : (Keygen.after cs n ops).fixed = grid cs.numFixed n fun c r =>
      (lastWrite (fixedWrite usable c r) ops).getD (.trivial 0) := rfl
    rcases v with _ | v
    · cases hx
      refine (same _ (fun a b => ?_) rfl fun _ _ => rfl).symm
      simp only [fixedWrite, ite_self]
    rw [hfix, setCell_grid] at hx
    by_cases hc : c < cs.numFixed
    · rw [if_pos ⟨hc, hlt hr⟩] at hx
      cases hx
      unfold Keygen.after
      simp only [lastWrite_snoc, List.filterMap_append, List.any_append, List.any_cons,
          List.any_nil, Bool.or_false, enables]
      congr 1
      · refine grid_congr fun a _ b _ => ?_
        by_cases h : a = c ∧ b = r
        · obtain ⟨rfl, rfl⟩ := h
          have : b < n - (cs.blindingFactors + 1) := hr
          simp [fixedWrite, this]
        · rw [if_neg h]
          simp only [fixedWrite]
          rw [if_neg (by rintro ⟨rfl, rfl, -⟩; exact h ⟨rfl, rfl⟩), Option.none_or]
      · rw [show List.filterMap (copyCall (n - (cs.blindingFactors + 1)))
            [Op.fixed (F := F) c r (some v)] = [] from rfl, List.append_nil]
    · rw [if_neg (by tauto)] at hx
      cases hx
      unfold Keygen.after
      simp only [lastWrite_snoc, List.filterMap_append, List.any_append, List.any_cons,
          List.any_nil, Bool.or_false, enables]
      congr 1
      · refine grid_congr fun a ha b _ => ?_
        simp only [fixedWrite]
        rw [if_neg (by rintro ⟨rfl, -⟩; exact hc ha), Option.none_or]
      · rw [show List.filterMap (copyCall (n - (cs.blindingFactors + 1)))
            [Op.fixed (F := F) c r (some v)] = [] from rfl, List.append_nil]
  | copy lc lr rc rr =>
    rw [Keygen.step, hus]
    refine ⟨?_, ?_⟩
    swap
    · split_ifs <;> simp [update_ne_none]
    intro x hx
    by_cases hr : ¬ lr < usable ∨ ¬ rr < usable
    · rw [if_pos hr] at hx
      cases hx
      refine (same _ (fun a b => rfl) ?_ fun _ _ => rfl).symm
      simp only [copyCall]
      rw [if_neg (by tauto)]
    rw [if_neg hr] at hx
    have hcall : List.filterMap (copyCall (n - (cs.blindingFactors + 1)))
        [Op.copy (F := F) lc lr rc rr] = [⟨lc, lr, rc, rr⟩] := by
      have : lr < n - (cs.blindingFactors + 1) ∧ rr < n - (cs.blindingFactors + 1) := by tauto
      simp [copyCall, this]
    have hp : (Keygen.after cs n ops).perm
      = Copy.run (Copy.new cs.permutation n) (ops.filterMap (copyCall usable)) := rfl
    have hx' : x.1 = { Keygen.after cs n ops with
        perm := Copy.run (Copy.new cs.permutation n)
          (ops.filterMap (copyCall usable) ++ [⟨lc, lr, rc, rr⟩]) } := by
      rw [copyRun_snoc]
      rw [hp] at hx
      dsimp only
      unfold permCopy at hx
      generalize Copy.copy _ lc lr rc rr = res at hx ⊢
      rcases res with _ | p
      · cases hx; rfl
      · cases hx; rfl
    rw [hx']
    unfold Keygen.after
    simp only [lastWrite_snoc, List.filterMap_append, List.any_append, List.any_cons,
          List.any_nil, Bool.or_false, enables, fixedWrite, Option.none_or, hcall]
    rfl
  | fill c r v =>
    rw [Keygen.step, hus]
    have hfix : (Keygen.after cs n ops).fixed = grid cs.numFixed n fun c r =>
      (lastWrite (fixedWrite usable c r) ops).getD (.trivial 0) := rfl
    by_cases hr : r < usable
    swap
    · rw [if_pos hr]
      refine ⟨?_, by simp⟩
      intro x hx
      cases hx
      refine (same _ (fun a b => ?_) rfl fun _ _ => rfl).symm
      simp only [fixedWrite]
      rw [if_neg]
      omega
    rw [if_neg (by simpa using hr), Keygen.fill, hfix]
    by_cases hc : c < cs.numFixed
    swap
    · rw [grid_col_none hc]
      refine ⟨?_, by simp⟩
      intro x hx
      cases hx
      unfold Keygen.after
      simp only [lastWrite_snoc, List.filterMap_append, List.any_append, List.any_cons,
          List.any_nil, Bool.or_false, enables]
      congr 1
      · refine grid_congr fun a ha b _ => ?_
        simp only [fixedWrite]
        rw [if_neg (by rintro ⟨rfl, -⟩; exact hc ha), Option.none_or]
      · rw [show List.filterMap (copyCall (n - (cs.blindingFactors + 1)))
            [Op.fill (F := F) c r v] = [] from rfl, List.append_nil]
    rw [grid_col hc]
    rcases v with _ | v
    · refine ⟨?_, by simp⟩
      intro x hx
      cases hx
      refine (same _ (fun a b => ?_) rfl fun _ _ => rfl).symm
      simp only [fixedWrite, ite_self]
    dsimp only
    rw [fillLoop_map _ _ _ _ (by
      intro i hi
      exact hlt (mem_drop_range.1 hi).2)]
    refine ⟨?_, by simp⟩
    intro x hx
    simp only [Option.map_some, Option.some.injEq] at hx
    subst hx
    dsimp only
    rw [grid_set]
    unfold Keygen.after
    simp only [lastWrite_snoc, List.filterMap_append, List.any_append, List.any_cons,
          List.any_nil, Bool.or_false, enables]
    congr 1
    · refine grid_congr fun a _ b _ => ?_
      by_cases h : a = c
      · subst h
        rw [if_pos rfl]
        by_cases hb : r ≤ b ∧ b < usable
        · rw [if_pos (mem_drop_range.2 hb)]
          simp only [fixedWrite]
          rw [if_pos ⟨trivial, hb⟩]
          rfl
        · rw [if_neg (by rw [mem_drop_range]; exact hb)]
          simp only [fixedWrite]
          rw [if_neg (by rintro ⟨-, h⟩; exact hb h), Option.none_or]
      · rw [if_neg h]
        simp only [fixedWrite]
        rw [if_neg (by rintro ⟨h', -⟩; exact h h'), Option.none_or]
    · rw [show List.filterMap (copyCall (n - (cs.blindingFactors + 1)))
            [Op.fill (F := F) c r (some v)] = [] from rfl, List.append_nil]

theorem Keygen.init_eq [Zero F] (cs : Cs F) (n : ℕ) :
    Keygen.init cs n = Keygen.after cs n [] := by
  unfold Keygen.init Keygen.after
  rw [grid_replicate, grid_replicate]
  rfl

/-- C30, key generation: after any calls the recorded assignments are the last writes to each cell,
the selectors enabled and the copies requested, all on usable rows; it panics only on a selector that
does not exist. -/
theorem keygen_run [Zero F] (cs : Cs F) (n : ℕ) (ops : List (Op F)) :
    let usable := n - (cs.blindingFactors + 1)
    (∀ s, runOps Keygen.step (Keygen.init cs n) ops = some s → s = Keygen.after cs n ops) ∧
    (runOps Keygen.step (Keygen.init cs n) ops ≠ none ↔ SelectorsOk usable cs.numSelectors ops) := by
  intro usable
  induction ops using List.reverseRecOn with
  | nil =>
    refine ⟨?_, by simp [runOps, SelectorsOk]⟩
    intro s h
    cases h
    exact Keygen.init_eq cs n
  | append_singleton ops op ih =>
    obtain ⟨ih1, ih2⟩ := ih
    rw [runOps_snoc]
    have hok : SelectorsOk usable cs.numSelectors (ops ++ [op]) ↔
        SelectorsOk usable cs.numSelectors ops ∧
        ∀ s r, op = .selector s r → r < usable → s.index < cs.numSelectors := by
      unfold SelectorsOk
      simp [or_imp, forall_and]
    rw [hok, ← ih2]
    rcases hrun : runOps Keygen.step (Keygen.init cs n) ops with _ | s
    · simp
    have hs := ih1 s hrun
    subst hs
    obtain ⟨h1, h2⟩ := Keygen.step_after cs n ops op
    simp only [Option.bind_some]
    refine ⟨?_, ?_⟩
    · intro s h
      rw [Option.map_eq_some_iff] at h
      obtain ⟨r, hr, rfl⟩ := h
      exact h1 r hr
    · rw [ne_eq, Option.map_eq_none_iff, h2]
      simp only [ne_eq, reduceCtorEq, not_false_eq_true, true_and]
      push Not
      rfl

theorem setCell_err {cells : List (List V)} {c r : ℕ} {v : Option V} {e : Err}
    (h : setCell cells c r v = .error e) : e ≠ .notEnoughRows := by
  unfold setCell at h
  rcases v with _ | v
  · cases h; simp
  · rcases hc : cells[c]? with _ | col
    · rw [hc] at h; cases h; simp
    · rw [hc] at h
      dsimp only at h
      split_ifs at h
      cases h; simp

theorem permCopy_err {p : Copy.Assembly columns n} {lc rc : Column} {lr rr : ℕ} {e : Err}
    (h : permCopy p lc lr rc rr = .error e) : e ≠ .notEnoughRows := by
  unfold permCopy at h
  split at h
  · cases h; simp
  · cases h

theorem update_err {S T : Type} {s s' : S} {f : Except Err T} {k : T → S} {e : Err}
    (h : (update s f k : Out S F) = some (s', .error e)) : s' = s ∧ f = .error e := by
  rcases f with e' | t
  · cases h; exact ⟨rfl, rfl⟩
  · simp [update] at h

theorem Keygen.fill_err {s s' : Keygen F columns n} {c r : ℕ} {v : Option (Assigned F)} {e : Err}
    (h : s.fill c r v = some (s', .error e)) : s' = s ∧ e ≠ .notEnoughRows := by
  unfold Keygen.fill at h
  rcases hc : s.fixed[c]? with _ | col
  · rw [hc] at h; cases h; simp
  · rw [hc] at h
    rcases v with _ | v
    · cases h; simp
    · dsimp only at h
      rcases fillLoop v ((List.range s.usable).drop r) col with _ | col' <;> simp at h

/-- C30, key generation: a call it reads is refused for lack of rows exactly when it names a row that
is not usable; whatever the error, the state is left as it was; the calls it does not read change
nothing. -/
theorem keygen_rows (s : Keygen F columns n) (op : Op F) :
    (KeygenReads op →
      ((∃ s', s.step op = some (s', .error .notEnoughRows)) ↔ OutOfRows s.usable op)) ∧
    (∀ s' e, s.step op = some (s', .error e) → s' = s) ∧
    (¬ KeygenReads op → s.step op = some (s, .ok .done)) := by
  cases op with
  | enter => simp [Keygen.step, KeygenReads, OutOfRows]
  | exit => simp [Keygen.step, KeygenReads, OutOfRows]
  | advice c r v => simp [Keygen.step, KeygenReads]
  | query c r =>
    by_cases h : r < s.usable
    · simp [Keygen.step, KeygenReads, OutOfRows, h]
    · simp [Keygen.step, KeygenReads, OutOfRows, h, Nat.not_lt.1 h, eq_comm]
  | selector sel r =>
    by_cases h : r < s.usable
    · simp [Keygen.step, KeygenReads, OutOfRows, h]
    · simp [Keygen.step, KeygenReads, OutOfRows, h, Nat.not_lt.1 h, eq_comm]
  | fixed c r v =>
    by_cases h : r < s.usable
    · simp only [Keygen.step, KeygenReads, OutOfRows, h, not_true_eq_false, if_false]
      refine ⟨fun _ => ⟨?_, fun h' => by omega⟩, fun s' e he => (update_err he).1, by simp⟩
      rintro ⟨s', he⟩
      exact absurd rfl (setCell_err (update_err he).2)
    · simp [Keygen.step, KeygenReads, OutOfRows, h, Nat.not_lt.1 h, eq_comm]
  | copy lc lr rc rr =>
    by_cases h : ¬ lr < s.usable ∨ ¬ rr < s.usable
    · have h' : s.usable ≤ lr ∨ s.usable ≤ rr := by omega
      simp only [Keygen.step, KeygenReads, OutOfRows, h, if_true]
      simp [h', eq_comm]
    · simp only [Keygen.step, KeygenReads, OutOfRows, h, if_false]
      refine ⟨fun _ => ⟨?_, fun h' => by omega⟩, fun s' e he => (update_err he).1, by simp⟩
      rintro ⟨s', he⟩
      exact absurd rfl (permCopy_err (update_err he).2)
  | fill c r v =>
    by_cases h : r < s.usable
    · simp only [Keygen.step, KeygenReads, OutOfRows, h, not_true_eq_false, if_false]
      refine ⟨fun _ => ⟨?_, fun h' => by omega⟩, fun s' e he => (Keygen.fill_err he).1, by simp⟩
      rintro ⟨s', he⟩
      exact absurd rfl (Keygen.fill_err he).2
    · simp [Keygen.step, KeygenReads, OutOfRows, h, Nat.not_lt.1 h, eq_comm]

/-! ### Calls outside the usable rows -/

theorem fixedWrite_out {usable c r : ℕ} (h : usable ≤ r) (op : Op F) :
    fixedWrite usable c r op = none := by
  cases op <;> simp only [fixedWrite] <;> rw [if_neg (by omega)]

theorem adviceWrite_out {usable c r : ℕ} (h : usable ≤ r) (op : Op F) :
    adviceWrite usable c r op = none := by
  cases op <;> simp only [adviceWrite] <;> rw [if_neg (by omega)]

theorem enables_out {usable i r : ℕ} (h : usable ≤ r) (op : Op F) :
    enables usable i r op = false := by
  cases op <;> simp [enables]
  omega

/-- Copies on usable rows leave the cells of other rows alone. -/
theorem copies_out (usable : ℕ) : ∀ (ops : List (Op F)) (a : Copy.Cell columns n), usable ≤ a.2 →
    (Copy.run (Copy.new columns n) (ops.filterMap (copyCall usable))).mapping a = a := by
  intro ops
  induction ops using List.reverseRecOn with
  | nil => intro a _; rfl
  | append_singleton ops op ih =>
    intro a ha
    rw [List.filterMap_append, List.filterMap_cons]
    rcases hc : copyCall usable op with _ | k
    · simpa using ih a ha
    · rw [List.filterMap_nil, copyRun_snoc]
      have hk : k.leftRow < usable ∧ k.rightRow < usable := by
        cases op <;> simp [copyCall] at hc
        obtain ⟨h, rfl⟩ := hc
        exact h
      generalize hs : Copy.run (Copy.new columns n) (ops.filterMap (copyCall usable)) = s
      rw [hs] at ih
      rcases hcopy : Copy.copy s k.leftColumn k.leftRow k.rightColumn k.rightRow with e | s'
      · exact ih a ha
      · show s'.mapping a = a
        unfold Copy.copy at hcopy
        split at hcopy
        · cases hcopy
        split at hcopy
        · cases hcopy
        dsimp only at hcopy
        by_cases h1 : k.leftRow ≥ n ∨ k.rightRow ≥ n
        · rw [dif_pos h1] at hcopy; cases hcopy
        rw [dif_neg h1] at hcopy
        split at hcopy
        · cases hcopy; exact ih a ha
        split at hcopy
        · cases hcopy
        · cases hcopy
          dsimp only
          rw [Function.update_of_ne, Function.update_of_ne]
          · exact ih a ha
          · rintro rfl; exact absurd ha (by simpa using hk.1)
          · rintro rfl; exact absurd ha (by simpa using hk.2)

/-- C30, key generation: after any calls, on the rows from `n - (blinding_factors + 1)` on all fixed
cells are zero, all selectors are off and every cell is its own copy cycle. -/
theorem keygen_untouched [Zero F] (cs : Cs F) (n : ℕ) (ops : List (Op F))
    (s : Keygen F cs.permutation n) (h : runOps Keygen.step (Keygen.init cs n) ops = some s)
    (r : ℕ) (hr : n - (cs.blindingFactors + 1) ≤ r) (hn : r < n) :
    (∀ c < cs.numFixed, (s.fixed[c]?).bind (·[r]?) = some (.trivial 0)) ∧
    (∀ i < cs.numSelectors, (s.selectors[i]?).bind (·[r]?) = some false) ∧
    ∀ c, s.perm.mapping (c, ⟨r, hn⟩) = (c, ⟨r, hn⟩) := by
  have hs := (keygen_run cs n ops).1 s h
  subst hs
  refine ⟨fun c hc => ?_, fun i hi => ?_, fun c => copies_out _ ops _ hr⟩
  · refine (grid_cell hc hn).trans ?_
    rw [lastWrite_none _ _ fun op _ => fixedWrite_out hr op]
    rfl
  · refine (grid_cell hi hn).trans ?_
    rw [Option.some.injEq, List.any_eq_false]
    intro op _
    rw [enables_out hr op]
    simp

end Verif.Rows
