import Verif.Mock.Lookup
import Verif.Rows.MockProps
import Verif.Selectors.Props
import Verif.Copy.Props

/-!
# C28, C29: what the mock prover accepts
-/

namespace Verif.Mock

open Verif.Assigned (Assigned)
open Verif.Cs (Column Kind Cs Lookup Reach)
open Verif.Expr
open Verif.ExprEval
open Verif.Rows

variable {F : Type} [Field F] [LinearOrder F]

/-! ### Specification -/

/-- The assignment a circuit describes by its calls, with the values `blind` in the advice cells of the
rows it may not use: the last write to each cell, zero where there is none. -/
def assignment (usable : ℕ) (inst : List (List F)) (ops : List (Op F)) (blind : ℕ → ℕ → F) :
    Cols F where
  fixed c r := (lastWrite (fixedWrite usable c r) ops).elim 0 Assigned.evaluate
  advice c r := if r < usable then (lastWrite (adviceWrite usable c r) ops).elim 0 Assigned.evaluate
    else blind c r
  inst c r := (inst.getD c []).getD r 0

/-- The value of a cell. -/
def cellVal (t : Cols F) (c : Column) (r : ℕ) : F :=
  match c.kind with
  | .advice => t.advice c.index r
  | .fixed => t.fixed c.index r
  | .inst => t.inst c.index r

/-- The value of an expression of the circuit as configured on a row. -/
def exprVal (n usable : ℕ) (inst : List (List F)) (ops : List (Op F)) (blind : ℕ → ℕ → F) (j : ℕ)
    (e : Expr F) : F :=
  e.value id (rowEnv n (fun i r => ops.any (enables usable i r)) (assignment usable inst ops blind) j)

/-- The circuit is satisfied: gates on all rows, lookups on usable rows, copies. -/
structure Satisfied (cs : Cs F) (n : ℕ) (inst : List (List F)) (ops : List (Op F))
    (blind : ℕ → ℕ → F) : Prop where
  gates : ∀ g ∈ cs.gates, ∀ e ∈ g, ∀ j < n,
    exprVal n (n - (cs.blindingFactors + 1)) inst ops blind j e = 0
  lookups : ∀ l ∈ cs.lookups, ∀ j < n - (cs.blindingFactors + 1),
    ∃ j' < n - (cs.blindingFactors + 1),
      l.input.map (exprVal n (n - (cs.blindingFactors + 1)) inst ops blind j) =
        l.table.map (exprVal n (n - (cs.blindingFactors + 1)) inst ops blind j')
  copies : ∀ lc lr rc rr, Op.copy lc lr rc rr ∈ ops → lc ∈ cs.permutation → rc ∈ cs.permutation →
    lr < n - (cs.blindingFactors + 1) → rr < n - (cs.blindingFactors + 1) →
    cellVal (assignment (n - (cs.blindingFactors + 1)) inst ops blind) lc lr =
      cellVal (assignment (n - (cs.blindingFactors + 1)) inst ops blind) rc rr

/-! ### Poison is sound -/

variable {columns : List Column} {n : ℕ}

/-- If the expression evaluates to a real value, then it has this value whatever the poisoned cells
contain. -/
theorem eval_sound (cs : Cs F) (s : Rows.Mock F columns n) (row : ℤ → Option ℕ) (v : Env F)
    (hf : ∀ q y, cs.fixedQueries[q.index]? = some (q.column, q.rotation) →
      load row cs.fixedQueries s.fixed Val.ofCell q = some (.real y) → v.fixed q = y)
    (ha : ∀ q y, cs.adviceQueries[q.index]? = some (q.column, q.rotation) →
      load row cs.adviceQueries s.advice Val.ofCell q = some (.real y) → v.advice q = y)
    (hi : ∀ q y, cs.instanceQueries[q.index]? = some (q.column, q.rotation) →
      load row cs.instanceQueries s.inst (fun v => .real (instValue v)) q = some (.real y) →
      v.inst q = y)
    (e : Expr F) (hc : cs.Covers e) :
    ∀ x, eval cs s row e = some (.real x) → e.value id v = x := by
  induction e with
  | constant c => intro x h; cases h; rfl
  | selector q => intro x h; cases h
  | fixed q => intro x h; exact hf q x hc h
  | advice q => intro x h; exact ha q x hc h
  | inst q => intro x h; exact hi q x hc h
  | negated a iha =>
    intro x h
    obtain ⟨y, hy, h⟩ := Option.map_eq_some_iff.1 (show (eval cs s row a).map Val.neg = _ from h)
    rcases y with y | _
    · cases h
      simp only [Expr.value, iha hc y hy]
    · cases h
  | scaled a f iha =>
    intro x h
    obtain ⟨y, hy, h⟩ := Option.map_eq_some_iff.1
      (show (eval cs s row a).map (fun a => a.scale f) = _ from h)
    rcases y with y | _
    · cases h
      simp only [Expr.value, iha hc y hy, id]
    · simp only [Val.scale] at h
      split_ifs at h with hz
      cases h
      simp [Expr.value, hz]
  | sum a b iha ihb =>
    intro x h
    obtain ⟨y, hy, h⟩ := Option.bind_eq_some_iff.1
      (show (eval cs s row a).bind (fun a => (eval cs s row b).map fun b => a.add b) = _ from h)
    obtain ⟨z, hz, h⟩ := Option.map_eq_some_iff.1 h
    rcases y with y | _ <;> rcases z with z | _
    · cases h
      simp only [Expr.value, iha hc.1 y hy, ihb hc.2 z hz]
    all_goals cases h
  | product a b iha ihb =>
    intro x h
    obtain ⟨y, hy, h⟩ := Option.bind_eq_some_iff.1
      (show (eval cs s row a).bind (fun a => (eval cs s row b).map fun b => a.mul b) = _ from h)
    obtain ⟨z, hz, h⟩ := Option.map_eq_some_iff.1 h
    rcases y with y | _ <;> rcases z with z | _
    · cases h
      simp only [Expr.value, iha hc.1 y hy, ihb hc.2 z hz]
    · simp only [Val.mul] at h
      split_ifs at h with h0
      cases h
      simp [Expr.value, iha hc.1 y hy, h0]
    · simp only [Val.mul] at h
      split_ifs at h with h0
      cases h
      simp [Expr.value, ihb hc.2 z hz, h0]
    · cases h

theorem gateRow_eq {n j : ℕ} {rot : ℤ} {r : ℕ} (h : gateRow n j rot = some r) :
    r = rotRow n j rot := by
  simp only [gateRow] at h
  split_ifs at h with h0
  cases h
  unfold rotRow
  congr 1
  rcases Nat.eq_zero_or_pos n with rfl | hn
  · simp
  have hn' : (0 : ℤ) < n := by exact_mod_cast hn
  have hadd : ((n : ℤ) + j + rot) % n = (j + rot) % n := by
    rw [show (n : ℤ) + j + rot = (j + rot) + n by ring, Int.add_emod_right]
  rw [← hadd]
  generalize (n : ℤ) + j + rot = a at h0 ⊢
  rcases le_or_gt 0 a with ha | ha
  · exact Int.tmod_eq_emod_of_nonneg ha
  · have h1 : a.tmod n ≤ 0 := by
      have h := Int.tmod_nonneg (n : ℤ) (show 0 ≤ -a by omega)
      rw [Int.neg_tmod] at h
      omega
    have h2 : a.tmod n = 0 := by omega
    have hd : (n : ℤ) ∣ a := Int.dvd_of_tmod_eq_zero h2
    rw [h2, Int.emod_eq_zero_of_dvd hd]

theorem lookupRow_eq {k j : ℕ} (hk : k ≤ 64) {rot : ℤ} {r : ℕ}
    (h : lookupRow (2 ^ k) j rot = some r) : r = rotRow (2 ^ k) j rot := by
  simp only [lookupRow, Option.some.injEq] at h
  subst h
  unfold rotRow
  have hpos : (0 : ℤ) < ((2 ^ k : ℕ) : ℤ) := by positivity
  have hdvd : ((2 ^ k : ℕ) : ℤ) ∣ ((2 ^ 64 : ℕ) : ℤ) := by
    exact_mod_cast pow_dvd_pow 2 hk
  have h64 : (0 : ℤ) < ((2 ^ 64 : ℕ) : ℤ) := by positivity
  generalize ((2 ^ 64 : ℕ) : ℤ) = m at hdvd h64 ⊢
  generalize hn : (2 ^ k : ℕ) = n at hpos hdvd ⊢
  have h0 : 0 ≤ ((j : ℤ) + n + rot) % m := Int.emod_nonneg _ h64.ne'
  have e1 : ((j : ℤ) + n + rot) % m % n = ((j : ℤ) + rot) % n := by
    rw [Int.emod_emod_of_dvd _ hdvd, show (j : ℤ) + n + rot = (j + rot) + n by ring,
      Int.add_emod_right]
  rw [← e1]
  generalize ((j : ℤ) + n + rot) % m = a at h0 ⊢
  obtain ⟨b, rfl⟩ := Int.eq_ofNat_of_zero_le h0
  have : ((b : ℤ) % (n : ℤ)) = ((b % n : ℕ) : ℤ) := by push_cast; rfl
  rw [this, Int.toNat_natCast]
  rfl

theorem collect_nil {α : Type} {l : List (Option (List α))} (h : collect l = some []) :
    ∀ x ∈ l, x = some [] := by
  unfold collect at h
  obtain ⟨ys, hys, hfl⟩ := Option.map_eq_some_iff.1 h
  rw [List.flatten_eq_nil_iff] at hfl
  induction l generalizing ys with
  | nil => simp
  | cons a l ih =>
    rw [List.mapM_cons] at hys
    rcases a with _ | a
    · cases hys
    rcases hl : l.mapM id with _ | zs
    · rw [hl] at hys; cases hys
    rw [hl] at hys
    cases hys
    intro x hx
    rcases List.mem_cons.1 hx with rfl | hx
    · rw [hfl a (by simp)]
    · refine ih (by rw [hl, Option.map_some, Option.some.injEq, List.flatten_eq_nil_iff]
                    exact fun l' hl' => hfl l' (by simp [hl'])) zs hl
        (fun l' hl' => hfl l' (by simp [hl'])) x hx

/-! ### The cells of the mock prover after a run -/

/-- The state `s'` (with its constraint system `cs'`) that `verify` sees after the calls `ops`. -/
structure Ran (cs : Cs F) (n : ℕ) (inst : List (List F)) (ops : List (Op F)) (cs' : Cs F)
    (s' : Rows.Mock F cs.permutation n) : Prop where
  run : ∃ s₀ s, Mock.init cs n inst = some s₀ ∧ runOps Mock.step s₀ ops = some s ∧
    finish cs s = some (cs', s')

/-- What the cells are. -/
structure CellsOk (cs : Cs F) (n : ℕ) (inst : List (List F)) (ops : List (Op F)) (polys : List (List F))
    (s : Rows.Mock F cs.permutation n) : Prop where
  usable : s.usable = n - (cs.blindingFactors + 1)
  fixed : ∀ c r cell, at? s.fixed c r = some cell → ∀ blind, Val.ofCell cell = .real
    ((Selectors.extend (assignment (n - (cs.blindingFactors + 1)) inst ops blind) cs.numFixed
      polys).fixed c r)
  advice : ∀ c r cell, at? s.advice c r = some cell → ∀ blind,
    Val.ofCell cell = .poison ∧ n - (cs.blindingFactors + 1) ≤ r ∨
    Val.ofCell cell = .real ((assignment (n - (cs.blindingFactors + 1)) inst ops blind).advice c r)
  inst : ∀ c r v, at? s.inst c r = some v → ∀ blind,
    instValue v = (assignment (n - (cs.blindingFactors + 1)) inst ops blind).inst c r
  perm : s.perm = Copy.run (Copy.new cs.permutation n)
    (ops.filterMap (copyCall (n - (cs.blindingFactors + 1))))

theorem at?_grid {V : Type} {m n c r : ℕ} {f : ℕ → ℕ → V} {x : V}
    (h : at? (grid m n f) c r = some x) : c < m ∧ r < n ∧ x = f c r := by
  unfold at? at h
  by_cases hc : c < m
  · rw [grid_col hc] at h
    simp only [Option.bind_some, List.getElem?_map, Option.map_eq_some_iff] at h
    obtain ⟨r', hr', rfl⟩ := h
    rw [List.getElem?_eq_some_iff] at hr'
    obtain ⟨h1, h2⟩ := hr'
    simp at h1 h2
    subst h2
    exact ⟨hc, h1, rfl⟩
  · rw [grid_col_none hc] at h
    cases h

theorem cellOf_val (w : Option (Assigned F)) :
    Val.ofCell (cellOf .unassigned w) = .real (w.elim 0 Assigned.evaluate) := by
  rcases w with _ | v <;> rfl

theorem cellsOk_of (cs : Cs F) (n : ℕ) (inst : List (List F)) (ops : List (Op F))
    (s : Rows.Mock F cs.permutation n) (hs : Mock.After cs n inst ops s)
    (polys : List (List F)) (hp : ∀ p ∈ polys, p.length = n) :
    CellsOk cs n inst ops polys { s with fixed := s.fixed ++ polys.map (polyCells n) } where
  usable := hs.usable
  fixed := by
    intro c r cell h blind
    dsimp only at h
    simp only [Selectors.extend]
    by_cases hc : c < cs.numFixed
    · have h' : at? s.fixed c r = some cell := by
        rw [hs.fixed] at h ⊢
        unfold at? at h ⊢
        rwa [List.getElem?_append_left (by simpa [grid] using hc)] at h
      rw [hs.fixed] at h'
      obtain ⟨-, -, rfl⟩ := at?_grid h'
      rw [if_pos hc, cellOf_val]
      rfl
    · rw [if_neg hc]
      unfold at? at h
      have hlen : s.fixed.length = cs.numFixed := by rw [hs.fixed]; simp [grid]
      rw [List.getElem?_append_right (by omega), hlen, List.getElem?_map] at h
      rcases hpc : polys[c - cs.numFixed]? with _ | p
      · rw [hpc] at h; cases h
      rw [hpc] at h
      have hpl := hp p (List.mem_of_getElem? hpc)
      simp only [Option.map_some, Option.bind_some, polyCells, List.getElem?_map,
        Option.map_eq_some_iff] at h
      obtain ⟨r', hr', rfl⟩ := h
      rw [List.getElem?_eq_some_iff] at hr'
      obtain ⟨h1, h2⟩ := hr'
      simp at h1 h2
      subst h2
      simp only [List.getD_eq_getElem?_getD, hpc, Option.getD_some]
      rw [List.getElem?_eq_getElem (by omega)]
      rfl
  advice := by
    intro c r cell h blind
    dsimp only at h
    rw [hs.advice] at h
    obtain ⟨-, -, rfl⟩ := at?_grid h
    by_cases hr : r < n - (cs.blindingFactors + 1)
    · right
      rw [if_pos hr, cellOf_val]
      simp only [assignment]
      rw [if_pos hr]
    · left
      rw [if_neg hr, lastWrite_none _ _ fun op _ => adviceWrite_out (by omega) op]
      exact ⟨rfl, by omega⟩
  inst := by
    intro c r v h blind
    dsimp only at h
    rw [hs.inst] at h
    unfold at? at h
    rw [List.getElem?_map] at h
    rcases hc : inst[c]? with _ | col
    · rw [hc] at h; cases h
    rw [hc] at h
    simp only [Option.map_some, Option.bind_some, padInstance] at h
    simp only [assignment, List.getD_eq_getElem?_getD, hc, Option.getD_some]
    by_cases hr : r < col.length
    · rw [List.getElem?_append_left (by simpa using hr), List.getElem?_map] at h
      rw [List.getElem?_eq_getElem hr] at h ⊢
      simp only [Option.map_some, Option.some.injEq] at h
      subst h
      rfl
    · rw [List.getElem?_append_right (by simpa using hr)] at h
      have : v = none := by
        have := List.mem_of_getElem? h
        simpa using (List.mem_replicate.1 this).2
      subst this
      rw [List.getElem?_eq_none (by omega)]
      rfl
  perm := hs.perm

/-- Reading through `load` at row `j`. -/
theorem CellsOk.sound {cs : Cs F} {inst : List (List F)} {ops : List (Op F)} {polys : List (List F)}
    {s : Rows.Mock F cs.permutation n} (h : CellsOk cs n inst ops polys s) (cs' : Cs F) (j : ℕ)
    (row : ℤ → Option ℕ) (hrow : ∀ rot r, row rot = some r → r = rotRow n j rot)
    (blind : ℕ → ℕ → F) (e : Expr F) (hc : cs'.Covers e) (x : F)
    (he : eval cs' s row e = some (.real x)) :
    rowVal n (Selectors.extend (assignment (n - (cs.blindingFactors + 1)) inst ops blind)
      cs.numFixed polys) j e = x := by
  unfold rowVal
  refine eval_sound cs' s row _ ?_ ?_ ?_ e hc x he
  · intro q y hq hl
    simp only [load, hq, Option.bind_some] at hl
    obtain ⟨r, hr, hl⟩ := Option.bind_eq_some_iff.1 hl
    obtain ⟨cell, hcell, hv⟩ := Option.map_eq_some_iff.1 hl
    rw [h.fixed _ _ _ hcell blind, Val.real.injEq] at hv
    rw [← hv, hrow _ _ hr]
  · intro q y hq hl
    simp only [load, hq, Option.bind_some] at hl
    obtain ⟨r, hr, hl⟩ := Option.bind_eq_some_iff.1 hl
    obtain ⟨cell, hcell, hv⟩ := Option.map_eq_some_iff.1 hl
    rcases h.advice _ _ _ hcell blind with ⟨h', -⟩ | h'
    · rw [h'] at hv; cases hv
    · rw [h', Val.real.injEq] at hv
      rw [← hv, hrow _ _ hr]
      rfl
  · intro q y hq hl
    simp only [load, hq, Option.bind_some] at hl
    obtain ⟨r, hr, hl⟩ := Option.bind_eq_some_iff.1 hl
    obtain ⟨cell, hcell, hv⟩ := Option.map_eq_some_iff.1 hl
    rw [h.inst _ _ _ hcell blind, Val.real.injEq] at hv
    rw [← hv, hrow _ _ hr]
    rfl

end Verif.Mock
