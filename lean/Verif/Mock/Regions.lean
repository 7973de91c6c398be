import Verif.Mock.Accept
import Verif.Mock.Example

/-!
# Cells queried by an enabled gate must be assigned in its region (C57)
-/

namespace Verif.Mock

open Verif.Assigned (Assigned)
open Verif.Cs (Column Kind Cs)
open Verif.Expr (Sel)
open Verif.Rows

variable {F : Type} [Field F] [DecidableEq F] {columns : List Column} {n : ℕ}

/-- The call assigns (or tries to assign) the cell. -/
def Assigns (usable : ℕ) (column : Column) (row : ℕ) : Op F → Prop
  | .advice c r _ => column = ⟨.advice, c⟩ ∧ row = r
  | .fixed c r _ => column = ⟨.fixed, c⟩ ∧ row = r
  | .fill c r _ => column = ⟨.fixed, c⟩ ∧ r ≤ row ∧ row < usable
  | _ => False

/-- Neither the start nor the end of a region. -/
def Inside : Op F → Prop
  | .enter => False
  | .exit => False
  | _ => True

/-- The bookkeeping of the region after some calls inside it. -/
structure Tracked (usable : ℕ) (body : List (Op F)) (r : Region) : Prop where
  enabled : ∀ sel row, .selector sel row ∈ body → row < usable → (sel, row) ∈ r.enabled
  cells : ∀ c row, (c, row) ∈ r.cells → ∃ op ∈ body, Assigns usable c row op

theorem Tracked.cells_append {usable : ℕ} {body : List (Op F)} {r : Region} (h : Tracked usable body r)
    (op : Op F) (r' : Region) (he : r'.enabled = r.enabled) (hop : ∀ sel row, op ≠ .selector sel row)
    (hc : ∀ c row, (c, row) ∈ r'.cells → (c, row) ∈ r.cells ∨ Assigns usable c row op) :
    Tracked usable (body ++ [op]) r' where
  enabled := by
    intro sel row hm hr
    rcases List.mem_append.1 hm with hm | hm
    · rw [he]; exact h.enabled sel row hm hr
    · exact absurd (List.mem_singleton.1 hm).symm (hop sel row)
  cells := by
    intro c row hm
    rcases hc c row hm with hm | hm
    · obtain ⟨o, ho, h'⟩ := h.cells c row hm
      exact ⟨o, List.mem_append_left _ ho, h'⟩
    · exact ⟨op, by simp, hm⟩

theorem fillLoop_current (c : ℕ) (v : Option (Assigned F)) :
    ∀ (rows : List ℕ) (s s' : Rows.Mock F columns n) (res), Mock.fillLoop c v rows s = some (s', res) →
      s'.regions = s.regions ∧ s'.usable = s.usable ∧ ∀ r, s.current = some r → ∃ r',
        s'.current = some r' ∧ r'.enabled = r.enabled ∧
        ∀ x, x ∈ r'.cells → x ∈ r.cells ∨ ∃ row ∈ rows, x = (⟨.fixed, c⟩, row) := by
  intro rows
  induction rows with
  | nil =>
    intro s s' res h
    cases h
    exact ⟨rfl, rfl, fun r hr => ⟨r, hr, rfl, fun x hx => .inl hx⟩⟩
  | cons row rows ih =>
    intro s s' res h
    rw [Mock.fillLoop] at h
    obtain ⟨⟨s₁, res₁⟩, h1, h2⟩ := Option.bind_eq_some_iff.1 h
    have key : s₁.regions = s.regions ∧ s₁.usable = s.usable ∧ ∀ r, s.current = some r → ∃ r',
        s₁.current = some r' ∧ r'.enabled = r.enabled ∧
        ∀ x, x ∈ r'.cells → x ∈ r.cells ∨ x = (⟨.fixed, c⟩, row) := by
      unfold Mock.assignFixed at h1
      split_ifs at h1
      swap
      · cases h1
        exact ⟨rfl, rfl, fun r hr => ⟨r, hr, rfl, fun x hx => .inl hx⟩⟩
      · dsimp only [update] at h1
        have ht : ∀ r, s.current = some r → (s.touch ⟨.fixed, c⟩ row).current
            = some { r.updateExtent ⟨.fixed, c⟩ row with cells := r.cells ++ [(⟨.fixed, c⟩, row)] } := by
          intro r hr; simp [Mock.touch, hr]
        split at h1 <;> cases h1 <;> refine ⟨rfl, rfl, fun r hr => ⟨_, ht r hr, rfl, fun x hx => ?_⟩⟩ <;>
          simpa using hx
    cases res₁ with
    | error e =>
      cases h2
      refine ⟨key.1, key.2.1, fun r hr => ?_⟩
      obtain ⟨r', a1, a2, a3⟩ := key.2.2 r hr
      exact ⟨r', a1, a2, fun x hx => (a3 x hx).imp id fun e => ⟨row, by simp, e⟩⟩
    | ok _ =>
      obtain ⟨b1, b2, b3⟩ := ih _ _ _ h2
      refine ⟨b1.trans key.1, b2.trans key.2.1, fun r hr => ?_⟩
      obtain ⟨r', a1, a2, a3⟩ := key.2.2 r hr
      obtain ⟨r'', c1, c2, c3⟩ := b3 r' a1
      refine ⟨r'', c1, c2.trans a2, fun x hx => ?_⟩
      rcases c3 x hx with hx | ⟨row', hr', e⟩
      · exact (a3 x hx).imp id fun e => ⟨row, by simp, e⟩
      · exact .inr ⟨row', by simp [hr'], e⟩

/-- A call inside a region. -/
theorem step_tracked {usable : ℕ} {body : List (Op F)} {s s' : Rows.Mock F columns n} {r : Region} {res}
    (hu : s.usable = usable) (hr : s.current = some r) (ht : Tracked usable body r) {op : Op F}
    (hin : Inside op) (h : s.step op = some (s', res)) :
    s'.usable = usable ∧ s'.regions = s.regions ∧
      ∃ r', s'.current = some r' ∧ Tracked usable (body ++ [op]) r' := by
  have same : (∀ sel row, op ≠ .selector sel row) → s' = s → s'.usable = usable ∧
      s'.regions = s.regions ∧ ∃ r', s'.current = some r' ∧ Tracked usable (body ++ [op]) r' := by
    rintro hop rfl
    exact ⟨hu, rfl, r, hr, ht.cells_append op r rfl hop fun _ _ h => .inl h⟩
  have htouch : ∀ c row, (s.touch c row).current
      = some { r.updateExtent c row with cells := r.cells ++ [(c, row)] } := by
    intro c row; simp [Mock.touch, hr]
  cases op with
  | enter => exact hin.elim
  | exit => exact hin.elim
  | query c row =>
    apply same (by simp)
    simp only [Mock.step] at h
    split_ifs at h <;> cases h <;> rfl
  | selector sel row =>
    simp only [Mock.step] at h
    split_ifs at h with hrow
    swap
    · cases h
      rw [hu] at hrow
      refine ⟨hu, rfl, r, hr, ⟨fun sel' row' hm hlt => ?_, fun c row' hm => ?_⟩⟩
      · rcases List.mem_append.1 hm with hm | hm
        · exact ht.enabled _ _ hm hlt
        · cases List.mem_singleton.1 hm; exact absurd hlt hrow
      · obtain ⟨o, ho, h'⟩ := ht.cells c row' hm
        exact ⟨o, List.mem_append_left _ ho, h'⟩
    · simp only [Mock.enable, hr, Option.map_eq_some_iff] at h
      obtain ⟨sels, -, h⟩ := h
      cases h
      refine ⟨hu, rfl, _, rfl, ⟨fun sel' row' hm hlt => ?_, fun c row' hm => ?_⟩⟩
      · rcases List.mem_append.1 hm with hm | hm
        · exact List.mem_append_left _ (ht.enabled _ _ hm hlt)
        · cases List.mem_singleton.1 hm; simp
      · obtain ⟨o, ho, h'⟩ := ht.cells c row' hm
        exact ⟨o, List.mem_append_left _ ho, h'⟩
  | advice c row v =>
    simp only [Mock.step] at h
    split_ifs at h with hrow
    swap
    · exact same (by simp) (by cases h; rfl)
    · dsimp only [update] at h
      split at h <;> cases h <;> refine ⟨hu, rfl, _, htouch _ _, ht.cells_append _ _ rfl (by simp) ?_⟩ <;>
        intro c' row' hm <;> simpa [Assigns] using hm
  | fixed c row v =>
    simp only [Mock.step, Mock.assignFixed] at h
    split_ifs at h with hrow
    swap
    · exact same (by simp) (by cases h; rfl)
    · dsimp only [update] at h
      split at h <;> cases h <;> refine ⟨hu, rfl, _, htouch _ _, ht.cells_append _ _ rfl (by simp) ?_⟩ <;>
        intro c' row' hm <;> simpa [Assigns] using hm
  | copy lc lr rc rr =>
    simp only [Mock.step] at h
    split_ifs at h with hrow
    · exact same (by simp) (by cases h; rfl)
    · dsimp only [update] at h
      split at h <;> cases h <;> refine ⟨hu, rfl, r, hr, ht.cells_append _ r rfl (by simp)
        fun _ _ h => .inl h⟩
  | fill c row v =>
    simp only [Mock.step] at h
    split_ifs at h with hrow
    swap
    · exact same (by simp) (by cases h; rfl)
    · obtain ⟨h1, h2, h3⟩ := fillLoop_current _ _ _ _ _ _ h
      obtain ⟨r', a1, a2, a3⟩ := h3 r hr
      refine ⟨h2.trans hu, h1, r', a1, ht.cells_append _ _ a2 (by simp) fun c' row' hm => ?_⟩
      rcases a3 _ hm with hm | ⟨row'', hm, e⟩
      · exact .inl hm
      · cases e
        right
        obtain ⟨i, hi, e⟩ := List.getElem_of_mem hm
        simp only [List.getElem_drop, List.getElem_range] at e
        simp only [List.length_drop, List.length_range] at hi
        exact ⟨rfl, by omega, by omega⟩

theorem runOps_append {S : Type} {step : S → Op F → Out S F} (a b : List (Op F)) (s : S) :
    runOps step s (a ++ b) = (runOps step s a).bind fun s => runOps step s b := by
  induction a generalizing s with
  | nil => rfl
  | cons op a ih =>
    simp only [List.cons_append, runOps]
    rcases step s op with _ | r
    · rfl
    · simp only [Option.bind_some]; exact ih r.1

/-- Calls inside a region. -/
theorem run_tracked {usable : ℕ} (ops : List (Op F)) (hin : ∀ op ∈ ops, Inside op) :
    ∀ {body : List (Op F)} {s s' : Rows.Mock F columns n} {r : Region},
      s.usable = usable → s.current = some r → Tracked usable body r →
      runOps Mock.step s ops = some s' →
      s'.usable = usable ∧ s'.regions = s.regions ∧
      ∃ r', s'.current = some r' ∧ Tracked usable (body ++ ops) r' := by
  induction ops with
  | nil =>
    intro body s s' r hu hr ht h
    cases h
    exact ⟨hu, rfl, r, hr, by simpa using ht⟩
  | cons op ops ih =>
    intro body s s' r hu hr ht h
    rw [runOps] at h
    obtain ⟨⟨s₁, res⟩, h1, h2⟩ := Option.bind_eq_some_iff.1 h
    obtain ⟨a1, a2, r₁, a3, a4⟩ := step_tracked hu hr ht (hin op (by simp)) h1
    obtain ⟨b1, b2, r₂, b3, b4⟩ := ih (fun o ho => hin o (by simp [ho])) a1 a3 a4 h2
    exact ⟨b1, b2.trans a2, r₂, b3, by simpa using b4⟩

/-- Regions are never forgotten, and the usable rows and instance never change. -/
theorem step_regions {s s' : Rows.Mock F columns n} {op : Op F} {res}
    (h : s.step op = some (s', res)) :
    s'.usable = s.usable ∧ s'.inst = s.inst ∧ ∀ r ∈ s.regions, r ∈ s'.regions := by
  have fill : ∀ c v rows (s s' : Rows.Mock F columns n) res, Mock.fillLoop c v rows s = some (s', res) →
      s'.inst = s.inst := by
    intro c v rows
    induction rows with
    | nil => intro s s' res h; cases h; rfl
    | cons row rows ih =>
      intro s s' res h
      rw [Mock.fillLoop] at h
      obtain ⟨⟨s₁, res₁⟩, h1, h2⟩ := Option.bind_eq_some_iff.1 h
      have : s₁.inst = s.inst := by
        unfold Mock.assignFixed at h1
        split_ifs at h1
        swap
        · cases h1; rfl
        · dsimp only [update] at h1
          split at h1 <;> cases h1 <;> rfl
      cases res₁ with
      | error e => cases h2; exact this
      | ok _ => exact (ih _ _ _ h2).trans this
  cases op with
  | enter =>
    simp only [Mock.step] at h
    split_ifs at h
    cases h
    exact ⟨rfl, rfl, fun r hr => hr⟩
  | exit =>
    simp only [Mock.step, Option.map_eq_some_iff] at h
    obtain ⟨r, -, h⟩ := h
    cases h
    exact ⟨rfl, rfl, fun r hr => List.mem_append_left _ hr⟩
  | query c row =>
    simp only [Mock.step] at h
    split_ifs at h <;> cases h <;> exact ⟨rfl, rfl, fun r hr => hr⟩
  | selector sel row =>
    simp only [Mock.step] at h
    split_ifs at h
    swap
    · cases h; exact ⟨rfl, rfl, fun r hr => hr⟩
    · unfold Mock.enable at h
      split at h
      · cases h
      · obtain ⟨_, -, h⟩ := Option.map_eq_some_iff.1 h
        cases h; exact ⟨rfl, rfl, fun r hr => hr⟩
  | advice c row v =>
    simp only [Mock.step] at h
    split_ifs at h
    swap
    · cases h; exact ⟨rfl, rfl, fun r hr => hr⟩
    · dsimp only [update] at h
      split at h <;> cases h <;> exact ⟨rfl, rfl, fun r hr => hr⟩
  | fixed c row v =>
    simp only [Mock.step, Mock.assignFixed] at h
    split_ifs at h
    swap
    · cases h; exact ⟨rfl, rfl, fun r hr => hr⟩
    · dsimp only [update] at h
      split at h <;> cases h <;> exact ⟨rfl, rfl, fun r hr => hr⟩
  | copy lc lr rc rr =>
    simp only [Mock.step] at h
    split_ifs at h
    · cases h; exact ⟨rfl, rfl, fun r hr => hr⟩
    · dsimp only [update] at h
      split at h <;> cases h <;> exact ⟨rfl, rfl, fun r hr => hr⟩
  | fill c row v =>
    simp only [Mock.step] at h
    split_ifs at h
    swap
    · cases h; exact ⟨rfl, rfl, fun r hr => hr⟩
    · obtain ⟨h1, h2, -⟩ := fillLoop_current _ _ _ _ _ _ h
      exact ⟨h2, fill _ _ _ _ _ _ h, fun r hr => by rw [h1]; exact hr⟩

theorem run_regions {ops : List (Op F)} {s s' : Rows.Mock F columns n}
    (h : runOps Mock.step s ops = some s') :
    s'.usable = s.usable ∧ s'.inst = s.inst ∧ ∀ r ∈ s.regions, r ∈ s'.regions := by
  induction ops generalizing s with
  | nil => cases h; exact ⟨rfl, rfl, fun r hr => hr⟩
  | cons op ops ih =>
    rw [runOps] at h
    obtain ⟨⟨s₁, res⟩, h1, h2⟩ := Option.bind_eq_some_iff.1 h
    obtain ⟨a1, a2, a3⟩ := step_regions h1
    obtain ⟨b1, b2, b3⟩ := ih h2
    exact ⟨b1.trans a1, b2.trans a2, fun r hr => b3 r (a3 r hr)⟩

variable [LinearOrder F]

/-- **C57**: if the mock prover accepts, then for every region, every selector enabled in it on a
usable row, every gate that queries the selector, and every cell the gate queries: an advice or
fixed cell is assigned by a call made inside that region (on the row shifted by the rotation, modulo
the number of rows), and an instance cell is among the instance values supplied. -/
theorem mock_cells_assigned (cs cs' : Cs F) (n : ℕ) (inst : List (List F))
    (infos : List GateInfo) (s₀ s s' : Rows.Mock F cs.permutation n)
    (pre body post : List (Op F)) (hin : ∀ op ∈ body, Inside op)
    (h0 : Mock.init cs n inst = some s₀)
    (hrun : runOps Mock.step s₀ (pre ++ .enter :: (body ++ .exit :: post)) = some s)
    (hfin : finish cs s = some (cs', s')) (hv : verify cs' infos s' = some (.ok ()))
    (sel : Sel) (row : ℕ) (hsel : .selector sel row ∈ body)
    (hrow : row < n - (cs.blindingFactors + 1))
    (g : GateInfo) (hg : g ∈ infos) (hgs : sel ∈ g.selectors) (column : Column) (rot : ℤ)
    (hc : (column, rot) ∈ g.cells) :
    ∃ r : ℕ, (r : ℤ) = ((row : ℤ) + rot) % n ∧
      if column.kind = .inst then ∃ col, inst[column.index]? = some col ∧ r < col.length
      else ∃ op ∈ body, Assigns (n - (cs.blindingFactors + 1)) column r op := by
  have hinit : s₀.usable = n - (cs.blindingFactors + 1) ∧ s₀.inst = inst.map (padInstance n) := by
    unfold Mock.init at h0
    dsimp only at h0
    split_ifs at h0
    cases h0
    exact ⟨rfl, rfl⟩
  -- the region
  rw [runOps_append] at hrun
  obtain ⟨s₁, h1, hrun⟩ := Option.bind_eq_some_iff.1 hrun
  obtain ⟨u1, i1, -⟩ := run_regions h1
  rw [runOps] at hrun
  obtain ⟨⟨s₂, r₂⟩, h2, hrun⟩ := Option.bind_eq_some_iff.1 hrun
  simp only [Mock.step] at h2
  split_ifs at h2 with hnone
  cases h2
  rw [runOps_append] at hrun
  obtain ⟨s₃, h3, hrun⟩ := Option.bind_eq_some_iff.1 hrun
  obtain ⟨a1, -, reg, a2, a3⟩ := run_tracked (usable := n - (cs.blindingFactors + 1)) body hin
    (body := []) (r := {}) (s := { s₁ with current := some {} }) (u1.trans hinit.1) rfl ⟨by simp, by simp⟩ h3
  obtain ⟨-, i3, -⟩ := run_regions h3
  rw [runOps] at hrun
  obtain ⟨⟨s₄, r₄⟩, h4, hrun⟩ := Option.bind_eq_some_iff.1 hrun
  simp only [Mock.step, a2, Option.map_some, Option.some.injEq, Prod.mk.injEq] at h4
  obtain ⟨rfl, -⟩ := h4
  obtain ⟨u5, i5, m5⟩ := run_regions hrun
  have hreg : reg ∈ s.regions := m5 reg (by simp)
  have hinst : s.inst = inst.map (padInstance n) := by
    rw [i5, ← hinit.2, ← i1]; exact i3
  -- the checks
  have hregs : s'.regions = s.regions ∧ s'.inst = s.inst := by
    unfold finish at hfin
    obtain ⟨_, -, e⟩ := Option.map_eq_some_iff.1 hfin
    cases e
    exact ⟨rfl, rfl⟩
  unfold verify at hv
  obtain ⟨e₁, he₁, hv⟩ := Option.bind_eq_some_iff.1 hv
  obtain ⟨e₂, he₂, hv⟩ := Option.bind_eq_some_iff.1 hv
  obtain ⟨e₃, he₃, hv⟩ := Option.bind_eq_some_iff.1 hv
  obtain ⟨e₄, he₄, hv⟩ := Option.map_eq_some_iff.1 hv
  dsimp only at hv
  split_ifs at hv with hnil
  simp only [List.append_eq_nil_iff] at hnil
  obtain ⟨⟨⟨rfl, -⟩, -⟩, -⟩ := hnil
  obtain ⟨ri, hri, rfl⟩ := List.getElem_of_mem (hregs.1 ▸ hreg)
  obtain ⟨gi, hgi, rfl⟩ := List.getElem_of_mem hg
  have hck : cellCheck s' ri s'.regions[ri] gi row (column, rot) = some [] := by
    refine collect_nil he₁ _ ?_
    rw [List.mem_flatMap]
    refine ⟨(s'.regions[ri], ri), List.mem_zipIdx_iff_getElem?.2 (by simp [hri]), ?_⟩
    rw [List.mem_flatMap]
    refine ⟨(sel, row), a3.enabled sel row (by simpa using hsel) hrow, ?_⟩
    rw [List.mem_flatMap]
    refine ⟨(infos[gi], gi), List.mem_filter.2 ⟨List.mem_zipIdx_iff_getElem?.2 (by simp [hgi]), by
      simpa using hgs⟩, ?_⟩
    exact List.mem_map.2 ⟨(column, rot), hc, rfl⟩
  have htmod : ∀ x : ℤ, 0 ≤ (x + n).tmod n → 0 < n → (x + n).tmod n = x % n := by
    intro x hx hn
    have hmod : (x + n) % n = x % n := by simp
    rw [← hmod]
    by_cases h : 0 ≤ x + n
    · exact Int.tmod_eq_emod_of_nonneg h
    · have h1 : (x + n).tmod n ≤ 0 := by
        have := Int.tmod_nonneg (a := -(x + n)) n (by omega)
        rw [Int.neg_tmod] at this
        omega
      have h0 : (x + n).tmod n = 0 := by omega
      rw [h0, Int.emod_eq_zero_of_dvd (Int.dvd_of_tmod_eq_zero h0)]
  have hn : 0 < n := by omega
  unfold cellCheck at hck
  dsimp only at hck
  rw [show (row : ℤ) + n + rot = (row + rot) + n by ring] at hck
  have hkind : column.kind = .inst ∨ column.kind ≠ .inst := em _
  rcases hkind with hk | hk
  · simp only [hk] at hck
    split_ifs at hck with hneg
    obtain ⟨v, hv1, hv2⟩ := Option.map_eq_some_iff.1 hck
    have hnn : 0 ≤ ((row : ℤ) + rot + n).tmod n := by omega
    refine ⟨(((row : ℤ) + rot + n).tmod n).toNat, ?_, ?_⟩
    · rw [Int.toNat_of_nonneg hnn, htmod _ hnn hn]
    · rw [if_pos hk]
      generalize (((row : ℤ) + rot + n).tmod n).toNat = r at hv1 hv2
      rw [hregs.2, hinst] at hv1
      unfold at? at hv1
      rw [List.getElem?_map] at hv1
      rcases hcol : inst[column.index]? with _ | col
      · rw [hcol] at hv1; cases hv1
      · rw [hcol] at hv1
        refine ⟨col, rfl, ?_⟩
        by_contra hlen
        simp only [Option.map_some, Option.bind_some, padInstance] at hv1
        rw [List.getElem?_append_right (by simpa using hlen)] at hv1
        have : v = none := by
          have := List.mem_of_getElem? hv1
          exact (List.mem_replicate.1 this).2
        subst this
        cases hv2
  · have hck' : (if 0 ≤ ((row : ℤ) + rot + n).tmod n ∧
          (column, (((row : ℤ) + rot + n).tmod n).toNat) ∈ s'.regions[ri].cells then some []
        else s'.regions[ri].rows.map fun _ =>
          [Failure.cellNotAssigned gi ri row column (((row : ℤ) + rot + n).tmod n)]) = some [] := by
      rcases hkk : column.kind with _ | _ | _
      all_goals simp only [hkk] at hck hk
      all_goals first | exact hck | exact absurd rfl hk
    split_ifs at hck' with hcell
    · refine ⟨(((row : ℤ) + rot + n).tmod n).toNat, ?_, ?_⟩
      · rw [Int.toNat_of_nonneg hcell.1, htmod _ hcell.1 hn]
      · rw [if_neg hk]
        obtain ⟨op, hop, h⟩ := a3.cells _ _ hcell.2
        exact ⟨op, by simpa using hop, h⟩
    · obtain ⟨_, -, e⟩ := Option.map_eq_some_iff.1 hck'
      cases e

/-- The example of `Example.lean`: the gate enabled in the first region queries the advice cell, which
is assigned there. -/
example : ∃ r : ℕ, (r : ℤ) = ((0 : ℕ) + 0 : ℤ) % (2 ^ 3 : ℕ) ∧
    ∃ op ∈ ([.selector ⟨0, true⟩ 0, .advice 0 0 (some (.trivial 3))] : List (Op ℚ)),
      Assigns 2 ⟨.advice, 0⟩ r op := by
  have h : exRun 3 (exOps 3) = some (.ok ()) := by decide +kernel
  unfold exRun at h
  obtain ⟨s₀, h0, h⟩ := Option.bind_eq_some_iff.1 h
  obtain ⟨s, h1, h⟩ := Option.bind_eq_some_iff.1 h
  obtain ⟨⟨cs', s'⟩, h2, h⟩ := Option.bind_eq_some_iff.1 h
  have := mock_cells_assigned exCs cs' _ _ exInfos s₀ s s' []
    [.selector ⟨0, true⟩ 0, .advice 0 0 (some (.trivial 3))] _ (by simp [Inside]) h0 h1 h2 h
    ⟨0, true⟩ 0 (by simp) (by decide +kernel) _ (List.mem_singleton.2 rfl) (by simp) ⟨.advice, 0⟩ 0
    (by simp)
  obtain ⟨r, hr, h⟩ := this
  exact ⟨r, hr, h⟩

/-- Not assigned in the region, although assigned elsewhere: reported. -/
example : exRun 3 [.enter, .selector ⟨0, true⟩ 0, .fixed 0 0 (some (.trivial 3)), .exit,
    .enter, .advice 0 0 (some (.trivial 3)), .exit, .copy ⟨.advice, 0⟩ 0 ⟨.inst, 0⟩ 0]
    = some (.error [.cellNotAssigned 0 0 0 ⟨.advice, 0⟩ 0]) := by decide +kernel

end Verif.Mock
