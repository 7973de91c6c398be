import Verif.Mock.Total

/-!
# The mock prover follows every circuit that opens and closes its regions in turn (C90)

`impl Assignment for MockProver` panics on a region opened inside another, on closing a region that is
not open, and on a selector enabled outside a region or that does not exist: halo2_proofs/src/dev.rs
313-355.  These are its only panics during synthesis.
-/

namespace Verif.Mock

open Verif.Assigned (Assigned)
open Verif.Cs (Column Kind Cs Lookup Reach)
open Verif.Expr
open Verif.ExprEval
open Verif.Rows

variable {F : Type} [Field F] [LinearOrder F] {columns : List Column} {n : ℕ}

/-- The calls open and close regions in turn, and enable selectors that exist, inside a region;
`inside` tells whether a region is open before them. -/
def InTurn (usable m : ℕ) : Bool → List (Op F) → Prop
  | _, [] => True
  | inside, .enter :: ops => inside = false ∧ InTurn usable m true ops
  | inside, .exit :: ops => inside = true ∧ InTurn usable m false ops
  | inside, .selector s r :: ops =>
    (r < usable → inside = true ∧ s.index < m) ∧ InTurn usable m inside ops
  | inside, .query _ _ :: ops => InTurn usable m inside ops
  | inside, .advice _ _ _ :: ops => InTurn usable m inside ops
  | inside, .fixed _ _ _ :: ops => InTurn usable m inside ops
  | inside, .copy _ _ _ _ :: ops => InTurn usable m inside ops
  | inside, .fill _ _ _ :: ops => InTurn usable m inside ops

/-- What a call that is not about regions or selectors keeps. -/
structure Keeps (s s' : Rows.Mock F columns n) : Prop where
  usable : s'.usable = s.usable
  selectors : s'.selectors = s.selectors
  current : s'.current.isSome = s.current.isSome

theorem Keeps.refl (s : Rows.Mock F columns n) : Keeps s s := ⟨rfl, rfl, rfl⟩

theorem Keeps.trans {a b c : Rows.Mock F columns n} (h : Keeps a b) (h' : Keeps b c) : Keeps a c :=
  ⟨h'.usable.trans h.usable, h'.selectors.trans h.selectors, h'.current.trans h.current⟩

theorem keeps_touch (s : Rows.Mock F columns n) (c : Column) (r : ℕ) : Keeps s (s.touch c r) :=
  ⟨rfl, rfl, by simp [Mock.touch]⟩

theorem update_keeps {T : Type} (s s₀ : Rows.Mock F columns n) (f : Except Err T)
    (k : T → Rows.Mock F columns n) (h : Keeps s₀ s) (hk : ∀ t, Keeps s (k t)) :
    ∃ s' res, update (F := F) s f k = some (s', res) ∧ Keeps s₀ s' := by
  unfold update
  rcases f with e | t
  · exact ⟨_, _, rfl, h⟩
  · exact ⟨_, _, rfl, h.trans (hk t)⟩

theorem assignFixed_keeps (s : Rows.Mock F columns n) (c r : ℕ) (v : Option (Assigned F)) :
    ∃ s' res, s.assignFixed c r v = some (s', res) ∧ Keeps s s' := by
  unfold Mock.assignFixed
  split_ifs
  · exact update_keeps _ _ _ _ (keeps_touch s _ _) fun t => ⟨rfl, rfl, rfl⟩
  · exact ⟨_, _, rfl, .refl s⟩

theorem fillLoop_keeps (c : ℕ) (v : Option (Assigned F)) : ∀ (rows : List ℕ)
    (s : Rows.Mock F columns n), ∃ s' res, Mock.fillLoop c v rows s = some (s', res) ∧ Keeps s s' := by
  intro rows
  induction rows with
  | nil => exact fun s => ⟨s, _, rfl, .refl s⟩
  | cons r rows ih =>
    intro s
    obtain ⟨s₁, res, h1, hk⟩ := assignFixed_keeps s c r v
    rw [Mock.fillLoop, h1]
    rcases res with e | t
    · exact ⟨s₁, _, rfl, hk⟩
    · obtain ⟨s₂, res, h2, hk2⟩ := ih s₁
      exact ⟨s₂, res, h2, hk.trans hk2⟩

/-- One step keeps the shape, or panics. -/
theorem runs_from (m : ℕ) (ops : List (Op F)) : ∀ (s : Rows.Mock F columns n) (f : ℕ → ℕ → Bool),
    s.selectors = grid m n f → s.usable ≤ n →
    ((∃ s', runOps Mock.step s ops = some s') ↔ InTurn s.usable m s.current.isSome ops) := by
  induction ops with
  | nil => intro s f _ _; simp [runOps, InTurn]
  | cons op ops ih =>
    intro s f hs hu
    have other : (∃ s' res, Mock.step s op = some (s', res) ∧ Keeps s s') →
        ((∃ s', runOps Mock.step s (op :: ops) = some s') ↔
          InTurn s.usable m s.current.isSome ops) := by
      rintro ⟨s', res, h, hk⟩
      rw [runOps, h, Option.bind_some, ih s' f (hk.selectors.trans hs) (hk.usable.le.trans hu),
        hk.usable, hk.current]
    cases op with
    | enter =>
      simp only [runOps, Mock.step, InTurn]
      cases hc : s.current with
      | some r => simp
      | none =>
        simp only [Option.isNone_none, if_true, Option.bind_some, Option.isSome_none, true_and]
        exact ih _ f hs hu
    | exit =>
      simp only [runOps, Mock.step, InTurn]
      cases hc : s.current with
      | none => simp
      | some r =>
        simp only [Option.map_some, Option.bind_some, Option.isSome_some, true_and]
        exact ih _ f hs hu
    | selector sel r =>
      by_cases hr : r < s.usable
      · simp only [runOps, Mock.step, InTurn, hr, not_true_eq_false, if_false, Mock.enable, forall_const]
        cases hc : s.current with
        | none => simp
        | some reg =>
          dsimp only
          rw [hs, setSelector_grid _ _ _ _ _ (lt_of_lt_of_le hr hu)]
          by_cases hm : sel.index < m
          · simp only [hm, if_true, Option.map_some, Option.bind_some, Option.isSome_some, true_and]
            exact ih _ _ rfl hu
          · simp [hm]
      · rw [other ⟨s, _, by rw [Mock.step, if_pos hr], .refl s⟩]
        simp [InTurn, hr]
    | query c r =>
      refine (other ?_).trans Iff.rfl
      rw [Mock.step]
      split_ifs
      · exact ⟨_, _, rfl, .refl s⟩
      · exact ⟨_, _, rfl, .refl s⟩
    | advice c r v =>
      refine (other ?_).trans Iff.rfl
      rw [Mock.step]
      split_ifs
      · exact update_keeps _ _ _ _ (keeps_touch s _ _) fun t => ⟨rfl, rfl, rfl⟩
      · exact ⟨_, _, rfl, .refl s⟩
    | fixed c r v => exact (other (assignFixed_keeps s c r v)).trans Iff.rfl
    | copy lc lr rc rr =>
      refine (other ?_).trans Iff.rfl
      rw [Mock.step]
      split_ifs
      · exact ⟨_, _, rfl, .refl s⟩
      · exact update_keeps _ _ _ _ (.refl s) fun t => ⟨rfl, rfl, rfl⟩
    | fill c r v =>
      refine (other ?_).trans Iff.rfl
      rw [Mock.step]
      split_ifs
      · exact fillLoop_keeps c v _ s
      · exact ⟨_, _, rfl, .refl s⟩

/-- **C90**: with rows and an instance that fit, the mock prover follows the calls of a circuit to the
end exactly when they open and close regions in turn and enable, inside a region, selectors that exist;
whatever values, columns and rows the other calls name, it never panics on them. -/
theorem mock_runs (cs : Cs F) (inst : List (List F)) (ops : List (Op F))
    (s₀ : Rows.Mock F cs.permutation n) (h0 : Mock.init cs n inst = some s₀) :
    (∃ s, runOps Mock.step s₀ ops = some s) ↔
      InTurn (n - (cs.blindingFactors + 1)) cs.numSelectors false ops := by
  have ha := mock_run cs n inst [] s₀ s₀ h0 rfl
  have hc : s₀.current = none := by
    simp only [Mock.init] at h0
    split_ifs at h0
    cases h0
    rfl
  rw [runs_from cs.numSelectors ops s₀ _ ha.selectors (ha.usable.le.trans (Nat.sub_le _ _)), ha.usable, hc]
  rfl

/-- When the mock prover starts: there are rows enough, a column of values for each instance column,
none longer than the usable rows. -/
theorem mock_starts (cs : Cs F) (inst : List (List F)) :
    (∃ s₀ : Rows.Mock F cs.permutation n, Mock.init cs n inst = some s₀) ↔
      cs.minimumRows ≤ n ∧ inst.length = cs.numInstance ∧
        ∀ c ∈ inst, c.length ≤ n - (cs.blindingFactors + 1) := by
  simp only [Mock.init]
  split_ifs with h1 h2 h3
  · simp; omega
  · simp [h2]
  · simp only [reduceCtorEq, exists_false, false_iff, not_and, not_forall]
    intro _ _
    rw [List.any_eq_true] at h3
    obtain ⟨c, hc, hl⟩ := h3
    exact ⟨c, hc, by simpa using hl⟩
  · simp only [Option.some.injEq, exists_eq', true_iff]
    refine ⟨by omega, by simpa using h2, fun c hc => ?_⟩
    by_contra hl
    exact h3 (List.any_eq_true.2 ⟨c, hc, by simpa using hl⟩)

/-- **C90**, the whole of `MockProver::run` and `verify`: a circuit that is satisfied, assigns what its
gates query and reads no row it may not use is accepted. -/
theorem mock_ok (cs : Cs F) (k : ℕ) (hk : k ≤ 64) (simple : ℕ → Bool)
    (hcfg : Link.Configured cs (2 ^ k) simple)
    (inst : List (List F)) (ops : List (Op F)) (infos : List GateInfo)
    (hrows : cs.minimumRows ≤ 2 ^ k) (hinst : inst.length = cs.numInstance)
    (hlen : ∀ c ∈ inst, c.length ≤ 2 ^ k - (cs.blindingFactors + 1))
    (hturn : InTurn (2 ^ k - (cs.blindingFactors + 1)) cs.numSelectors false ops)
    (hinfos : ∀ g ∈ infos, ∀ cell ∈ g.cells, cell.2.natAbs ≤ 2 ^ k ∧
      (cell.1.kind = .inst → cell.1.index < cs.numInstance))
    (hsupplied : ∀ body ∈ regionCalls ops, ∀ info ∈ infos, ∀ row column rot,
      Queries info (2 ^ k - (cs.blindingFactors + 1)) body row column rot →
      Supplied (2 ^ k) (2 ^ k - (cs.blindingFactors + 1)) inst body row column rot)
    (hcopies : ∀ lc lr rc rr, .copy lc lr rc rr ∈ ops → lc ∈ cs.permutation → rc ∈ cs.permutation →
      lr < 2 ^ k - (cs.blindingFactors + 1) → rr < 2 ^ k - (cs.blindingFactors + 1) →
      (IsAssigned (2 ^ k - (cs.blindingFactors + 1)) ops lc lr ↔
        IsAssigned (2 ^ k - (cs.blindingFactors + 1)) ops rc rr))
    (hgates : ∀ g ∈ cs.gates, ∀ e ∈ g, ∀ j < 2 ^ k,
      ¬ Exposed (2 ^ k) (2 ^ k - (cs.blindingFactors + 1)) ops j e)
    (hlookups : ∀ l ∈ cs.lookups, ∀ e ∈ l.input, ∀ j < 2 ^ k - (cs.blindingFactors + 1),
      ¬ Exposed (2 ^ k) (2 ^ k - (cs.blindingFactors + 1)) ops j e)
    (blind : ℕ → ℕ → F) (hsat : Satisfied cs (2 ^ k) inst ops blind) :
    Link.mock cs (2 ^ k) infos inst ops = some (.ok ()) := by
  obtain ⟨s₀, h0⟩ := (mock_starts cs inst).2 ⟨hrows, hinst, hlen⟩
  obtain ⟨s, hrun⟩ := (mock_runs cs inst ops s₀ h0).2 hturn
  obtain ⟨cs', s', hfin, hv⟩ := mock_complete cs k hk simple hcfg inst ops infos hinfos hsupplied
    hcopies hgates hlookups blind hsat s₀ s h0 hrun
  unfold Link.mock
  rw [h0, Option.bind_some, hrun, Option.bind_some, hfin, Option.bind_some, hv]

/-- A rejection names a failure. -/
theorem verify_nonempty {cs : Cs F} {infos : List GateInfo} {s : Rows.Mock F columns n} :
    verify cs infos s ≠ some (.error []) := by
  intro h
  unfold verify at h
  obtain ⟨e₁, -, h⟩ := Option.bind_eq_some_iff.1 h
  obtain ⟨e₂, -, h⟩ := Option.bind_eq_some_iff.1 h
  obtain ⟨e₃, -, h⟩ := Option.bind_eq_some_iff.1 h
  obtain ⟨e₄, -, h⟩ := Option.map_eq_some_iff.1 h
  dsimp only at h
  split_ifs at h with hne
  exact dedup_ne_nil _ hne (Except.error.inj h)

/-- **C90**, the whole of `MockProver::run` and `verify` returns, under the conditions of C88. -/
theorem mock_verdict (cs : Cs F) (k : ℕ) (simple : ℕ → Bool) (hcfg : Link.Configured cs (2 ^ k) simple)
    (inst : List (List F)) (ops : List (Op F)) (infos : List GateInfo)
    (hrows : cs.minimumRows ≤ 2 ^ k) (hinst : inst.length = cs.numInstance)
    (hlen : ∀ c ∈ inst, c.length ≤ 2 ^ k - (cs.blindingFactors + 1))
    (hturn : InTurn (2 ^ k - (cs.blindingFactors + 1)) cs.numSelectors false ops)
    (hinfos : ∀ g ∈ infos, ∀ cell ∈ g.cells, cell.2.natAbs ≤ 2 ^ k ∧
      (cell.1.kind = .inst → cell.1.index < cs.numInstance))
    (hregions : ∀ body ∈ regionCalls ops, ∀ info ∈ infos, ∀ row column rot,
      Queries info (2 ^ k - (cs.blindingFactors + 1)) body row column rot → column.kind ≠ .inst →
      ∃ c r v, r < 2 ^ k - (cs.blindingFactors + 1) ∧ (.advice c r v ∈ body ∨ .fixed c r v ∈ body))
    (hreads : ∀ g ∈ cs.gates, ∀ e ∈ g, ∀ j < 2 ^ k,
      ReadsBlinded (2 ^ k) (2 ^ k - (cs.blindingFactors + 1)) j e →
        ∃ blind, exprVal (2 ^ k) (2 ^ k - (cs.blindingFactors + 1)) inst ops blind j e = 0) :
    ∃ res, Link.mock cs (2 ^ k) infos inst ops = some res := by
  obtain ⟨s₀, h0⟩ := (mock_starts cs inst).2 ⟨hrows, hinst, hlen⟩
  obtain ⟨s, hrun⟩ := (mock_runs cs inst ops s₀ h0).2 hturn
  obtain ⟨cs', s', res, hfin, hv⟩ := mock_returns cs k simple hcfg inst ops infos hinfos hregions hreads
    s₀ s h0 hrun
  refine ⟨res, ?_⟩
  unfold Link.mock
  rw [h0, Option.bind_some, hrun, Option.bind_some, hfin, Option.bind_some, hv]

/-- A circuit with two regions, run; and three that panic. -/
example : InTurn (F := ℚ) 10 1 false [.enter, .selector ⟨0, true⟩ 3, .fixed 7 900 none, .exit,
    .copy ⟨.advice, 5⟩ 2 ⟨.inst, 9⟩ 4, .enter, .exit] := by simp [InTurn]

example : ¬ InTurn (F := ℚ) 10 1 false [.enter, .enter] := by simp [InTurn]
example : ¬ InTurn (F := ℚ) 10 1 false [.selector ⟨0, true⟩ 3] := by simp [InTurn]
example : ¬ InTurn (F := ℚ) 10 1 false [.enter, .selector ⟨1, true⟩ 3] := by simp [InTurn]

end Verif.Mock
