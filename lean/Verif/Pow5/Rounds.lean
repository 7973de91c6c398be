import Verif.Pow5.Props

/-!
# The rounds of the Poseidon permutation chip, and the permutation (C42)
-/

namespace Verif.Pow5

open Verif.Region Verif.Poseidon Matrix

variable {C S F : Type} [Field F] {r : ℕ}

/-- Writing the constants of a round. -/
def fixedOps (reg : ℕ) (cols : Fin (r + 1) → C) (row : ℕ) (v : Fin (r + 1) → F) :
    List (Op C S F) :=
  (List.finRange (r + 1)).flatMap fun i => [.fixed ⟨reg, cols i, row⟩ (v i)]

/-- Writing a state. -/
def adviceOps (reg : ℕ) (cols : Fin (r + 1) → C) (row : ℕ) (v : Fin (r + 1) → F) :
    List (Op C S F) :=
  (List.finRange (r + 1)).flatMap fun i => [.advice ⟨reg, cols i, row⟩ (v i)]

omit [Field F] in
theorem mem_fixedOps {reg : ℕ} {cols : Fin (r + 1) → C} {row : ℕ} {v : Fin (r + 1) → F}
    {op : Op C S F} : op ∈ fixedOps reg cols row v ↔ ∃ i, op = .fixed ⟨reg, cols i, row⟩ (v i) := by
  simp [fixedOps, eq_comm]

omit [Field F] in
theorem mem_adviceOps {reg : ℕ} {cols : Fin (r + 1) → C} {row : ℕ} {v : Fin (r + 1) → F}
    {op : Op C S F} :
    op ∈ adviceOps reg cols row v ↔ ∃ i, op = .advice ⟨reg, cols i, row⟩ (v i) := by
  simp [adviceOps, eq_comm]

/-- The cells of a row. -/
def cellsAt (reg : ℕ) (cols : Fin (r + 1) → C) (row : ℕ) (v : Fin (r + 1) → F) : Words C F r :=
  fun i => ⟨⟨reg, cols i, row⟩, v i⟩

omit [Field F] in
theorem tab_fixed (reg : ℕ) (cols : Fin (r + 1) → C) (row : ℕ) (v : Fin (r + 1) → F) (n : ℕ) :
    (tabulate (r + 1) fun i => assignFixed reg (cols i) row (v i) : M C S F _) n
      = some (cellsAt reg cols row v, n, fixedOps reg cols row v) :=
  tabulate_run n fun _ => rfl

omit [Field F] in
theorem tab_advice (reg : ℕ) (cols : Fin (r + 1) → C) (row : ℕ) (v : Fin (r + 1) → F) (n : ℕ) :
    (tabulate (r + 1) fun i => assignAdvice reg (cols i) row (v i) : M C S F _) n
      = some (cellsAt reg cols row v, n, adviceOps reg cols row v) :=
  tabulate_run n fun _ => rfl

omit [Field F] in
theorem assigned_fixedOps {reg : ℕ} {cols : Fin (r + 1) → C} {row : ℕ} {v : Fin (r + 1) → F}
    {c : Cell C} {w : F} : Assigned (fixedOps reg cols row v : List (Op C S F)) c w ↔
      ∃ i, c = ⟨reg, cols i, row⟩ ∧ w = v i := by
  simp [Assigned, mem_fixedOps]

omit [Field F] in
theorem assigned_adviceOps {reg : ℕ} {cols : Fin (r + 1) → C} {row : ℕ} {v : Fin (r + 1) → F}
    {c : Cell C} {w : F} : Assigned (adviceOps reg cols row v : List (Op C S F)) c w ↔
      ∃ i, c = ⟨reg, cols i, row⟩ ∧ w = v i := by
  simp [Assigned, mem_adviceOps]

omit [Field F] in
theorem consistent_fixedOps (reg : ℕ) {cols : Fin (r + 1) → C} (h : Function.Injective cols)
    (row : ℕ) (v : Fin (r + 1) → F) : Consistent (fixedOps reg cols row v : List (Op C S F)) := by
  intro c x y hx hy
  obtain ⟨i, rfl, rfl⟩ := assigned_fixedOps.1 hx
  obtain ⟨j, hj, rfl⟩ := assigned_fixedOps.1 hy
  rw [h (Cell.mk.inj hj).2.1]

omit [Field F] in
theorem consistent_adviceOps (reg : ℕ) {cols : Fin (r + 1) → C} (h : Function.Injective cols)
    (row : ℕ) (v : Fin (r + 1) → F) : Consistent (adviceOps reg cols row v : List (Op C S F)) := by
  intro c x y hx hy
  obtain ⟨i, rfl, rfl⟩ := assigned_adviceOps.1 hx
  obtain ⟨j, hj, rfl⟩ := assigned_adviceOps.1 hy
  rw [h (Cell.mk.inj hj).2.1]

theorem sat_iff (cfg : Config C S r) (P : Spec F (r + 1)) (G : Grid C F) (ops : List (Op C S F)) :
    Sat (gates cfg P) G ops ↔
      (∀ reg row, .enable cfg.sFull reg row ∈ ops →
        ∀ p ∈ fullGate cfg P (G.query reg row), p = 0) ∧
      (∀ reg row, .enable cfg.sPartial reg row ∈ ops →
        ∀ p ∈ partialGate cfg P (G.query reg row), p = 0) ∧
      (∀ reg row, .enable cfg.sPadAndAdd reg row ∈ ops →
        ∀ p ∈ padGate cfg (G.query reg row), p = 0) ∧
      (∀ a b, .equal a b ∈ ops → G.at a = G.at b) ∧
      (∀ c v, .const c v ∈ ops → G.at c = v) ∧ ∀ c v, .fixed c v ∈ ops → G.at c = v := by
  constructor
  · intro h
    exact ⟨h.gates _ (List.mem_cons_self ..),
      h.gates _ (List.mem_cons_of_mem _ (List.mem_cons_self ..)),
      h.gates _ (List.mem_cons_of_mem _ (List.mem_cons_of_mem _ (List.mem_cons_self ..))),
      h.equal, h.const, h.fixed⟩
  · rintro ⟨h1, h2, h3, h4, h5, h6⟩
    refine ⟨?_, h4, h5, h6⟩
    intro g hg
    simp only [gates, List.mem_cons, List.not_mem_nil, or_false] at hg
    rcases hg with rfl | rfl | rfl
    · exact h1
    · exact h2
    · exact h3

theorem sat_fixedOps (cfg : Config C S r) (P : Spec F (r + 1)) (G : Grid C F) {reg : ℕ}
    {cols : Fin (r + 1) → C} {row : ℕ} {v : Fin (r + 1) → F} :
    Sat (gates cfg P) G (fixedOps reg cols row v) ↔ ∀ i, G reg (cols i) row = v i := by
  rw [sat_iff]
  simp only [mem_fixedOps, reduceCtorEq, exists_false, false_imp_iff, implies_true, true_and]
  constructor
  · exact fun h i => h _ _ ⟨i, rfl⟩
  · rintro h c v ⟨i, hi⟩
    cases hi; exact h i

theorem sat_adviceOps (cfg : Config C S r) (P : Spec F (r + 1)) (G : Grid C F) {reg : ℕ}
    {cols : Fin (r + 1) → C} {row : ℕ} {v : Fin (r + 1) → F} :
    Sat (gates cfg P) G (adviceOps reg cols row v) := by
  rw [sat_iff]
  simp only [mem_adviceOps, reduceCtorEq, exists_false, false_imp_iff, implies_true, true_and]

omit [Field F] in
theorem honest_fixedOps {G : Grid C F} {reg : ℕ} {cols : Fin (r + 1) → C} {row : ℕ}
    {v : Fin (r + 1) → F} (h : Honest G (fixedOps reg cols row v : List (Op C S F))) (i) :
    G reg (cols i) row = v i := h.2 _ _ (mem_fixedOps.2 ⟨i, rfl⟩)

omit [Field F] in
theorem honest_adviceOps {G : Grid C F} {reg : ℕ} {cols : Fin (r + 1) → C} {row : ℕ}
    {v : Fin (r + 1) → F} (h : Honest G (adviceOps reg cols row v : List (Op C S F))) (i) :
    G reg (cols i) row = v i := h.1 _ _ (mem_adviceOps.2 ⟨i, rfl⟩)

theorem sat_enableFull {cfg : Config C S r} (hcfg : cfg.Ok) (P : Spec F (r + 1)) (G : Grid C F)
    (reg : ℕ) (row : ℤ) : Sat (gates cfg P) G [.enable cfg.sFull reg row] ↔
      ∀ p ∈ fullGate cfg P (G.query reg row), p = 0 := by
  rw [sat_iff]
  simp [hcfg.sel₁.symm, hcfg.sel₂.symm]

theorem sat_enablePartial {cfg : Config C S r} (hcfg : cfg.Ok) (P : Spec F (r + 1)) (G : Grid C F)
    (reg : ℕ) (row : ℤ) : Sat (gates cfg P) G [.enable cfg.sPartial reg row] ↔
      ∀ p ∈ partialGate cfg P (G.query reg row), p = 0 := by
  rw [sat_iff]
  simp [hcfg.sel₁, hcfg.sel₃.symm]

theorem sat_enablePad {cfg : Config C S r} (hcfg : cfg.Ok) (P : Spec F (r + 1)) (G : Grid C F)
    (reg : ℕ) (row : ℤ) : Sat (gates cfg P) G [.enable cfg.sPadAndAdd reg row] ↔
      ∀ p ∈ padGate cfg (G.query reg row), p = 0 := by
  rw [sat_iff]
  simp [hcfg.sel₂, hcfg.sel₃]

theorem fullRound_run (cfg : Config C S r) (P : Spec F (r + 1)) (reg rd offset : ℕ)
    (st : Words C F r) (rc : Fin (r + 1) → F) (hrc : P.roundConstants[rd]? = some rc) (n : ℕ) :
    fullRound cfg P reg rd offset st n = some
      (cellsAt reg cfg.state (offset + 1)
        (specRound (.of P.mds) (· ^ 5) true rc fun i => (st i).value), n,
        [.enable cfg.sFull reg offset] ++ (fixedOps reg cfg.rcA offset rc ++
          adviceOps reg cfg.state (offset + 1)
            (specRound (.of P.mds) (· ^ 5) true rc fun i => (st i).value))) := by
  have hp : ∀ {α : Type} (a : α) (n : ℕ), (pure a : M C S F α) n = some (a, n, []) :=
    fun _ _ => rfl
  have hu : ∀ n : ℕ, (unwrap (some rc) : M C S F _) n = some (rc, n, []) := fun _ => rfl
  have he : ∀ n : ℕ, (enable cfg.sFull reg offset : M C S F _) n
      = some ((), n, [.enable cfg.sFull reg offset]) := fun _ => rfl
  have hv : (applyMds P.mds fun idx => ((st idx).value + rc idx) ^ 5)
      = specRound (.of P.mds) (· ^ 5) true rc fun i => (st i).value := by
    rw [applyMds_eq]; simp [specRound]
  simp only [fullRound, round, hrc, bind_apply, hu, he, hp, hv, tab_fixed, tab_advice]
  rfl

theorem partialRound_run (cfg : Config C S r) (P : Spec F (r + 1)) (reg rd offset : ℕ)
    (st : Words C F r) (rc rc' : Fin (r + 1) → F) (hrc : P.roundConstants[rd]? = some rc)
    (hrc' : P.roundConstants[rd + 1]? = some rc') (n : ℕ) :
    partialRound cfg P reg rd offset st n = some
      (cellsAt reg cfg.state (offset + 1)
        (specRound (.of P.mds) (· ^ 5) false rc'
          (specRound (.of P.mds) (· ^ 5) false rc fun i => (st i).value)), n,
        [.enable cfg.sPartial reg offset] ++ (fixedOps reg cfg.rcA offset rc ++
          ([.advice ⟨reg, cfg.partialSbox, offset⟩ (((st 0).value + rc 0) ^ 5)] ++
            (fixedOps reg cfg.rcB offset rc' ++ adviceOps reg cfg.state (offset + 1)
            (specRound (.of P.mds) (· ^ 5) false rc'
              (specRound (.of P.mds) (· ^ 5) false rc fun i => (st i).value)))))) := by
  have hp : ∀ {α : Type} (a : α) (n : ℕ), (pure a : M C S F α) n = some (a, n, []) :=
    fun _ _ => rfl
  have hu : ∀ (x : State F (r + 1)) (n : ℕ), (unwrap (some x) : M C S F _) n = some (x, n, []) :=
    fun _ _ => rfl
  have he : ∀ n : ℕ, (enable cfg.sPartial reg offset : M C S F _) n
      = some ((), n, [.enable cfg.sPartial reg offset]) := fun _ => rfl
  have ha : ∀ (v : F) (n : ℕ), (assignAdvice reg cfg.partialSbox offset v : M C S F _) n
      = some (⟨⟨reg, cfg.partialSbox, offset⟩, v⟩, n, [.advice ⟨reg, cfg.partialSbox, offset⟩ v]) :=
    fun _ _ => rfl
  have hv : applyMds P.mds (partialSboxes rc' (applyMds P.mds (partialSboxes rc fun i => (st i).value)))
      = specRound (.of P.mds) (· ^ 5) false rc'
          (specRound (.of P.mds) (· ^ 5) false rc fun i => (st i).value) := by
    rw [specRound_partial, specRound_partial, applyMds_eq, applyMds_eq]
  simp only [partialRound, round, hrc, hrc', bind_apply, hu, he, ha, hp, hv, tab_fixed, tab_advice,
    List.append_nil, List.nil_append, List.append_assoc]
  rfl

theorem fullRound_ok {cfg : Config C S r} (hcfg : cfg.Ok) (P : Spec F (r + 1)) (reg rd offset : ℕ)
    {rc : Fin (r + 1) → F} (hrc : P.roundConstants[rd]? = some rc) :
    StepOk cfg P reg offset (offset + 1) (specRound (.of P.mds) (· ^ 5) true rc)
      (fullRound cfg P reg rd offset) := by
  refine ⟨by omega, fun st n hst => ⟨_, _, fullRound_run cfg P reg rd offset st rc hrc n,
    fun i => rfl, rfl, ?_, ?_, fun G => ⟨?_, ?_⟩⟩⟩
  · intro c v hv
    rcases Assigned.append.1 hv with hv | hv
    · simp [Assigned] at hv
    rcases Assigned.append.1 hv with hv | hv
    · obtain ⟨i, rfl, -⟩ := assigned_fixedOps.1 hv
      refine ⟨rfl, Or.inr ⟨?_, le_rfl, by push_cast; omega⟩⟩
      rintro ⟨j, hj⟩; exact hcfg.stateA _ _ hj
    · obtain ⟨i, rfl, -⟩ := assigned_adviceOps.1 hv
      exact ⟨rfl, Or.inl ⟨⟨i, rfl⟩, by push_cast; omega, le_rfl⟩⟩
  · refine Consistent.append (by simp [Consistent, Assigned])
      (Consistent.append (consistent_fixedOps reg hcfg.rcA _ _)
        (consistent_adviceOps reg hcfg.state _ _)
        (A := fun c => c.row = offset) (B := fun c => c.row = (offset : ℤ) + 1) ?_ ?_ ?_)
      (A := fun _ => False) (B := fun _ => True) ?_ (fun _ _ _ => trivial) ?_
    · intro c v hv; obtain ⟨i, rfl, -⟩ := assigned_fixedOps.1 hv; rfl
    · intro c v hv; obtain ⟨i, rfl, -⟩ := assigned_adviceOps.1 hv; push_cast; rfl
    · intro c h1 h2; omega
    · intro c v hv; simp [Assigned] at hv
    · exact fun _ h _ => h
  · intro hs
    have h1 := (fullGate_iff cfg P _).1 ((sat_enableFull hcfg P G reg offset).1 hs.left)
    have h2 := (sat_fixedOps cfg P G).1 hs.right.left
    simp only [Grid.query, add_zero, h2] at h1
    push_cast
    exact h1
  · intro hG hin
    have h2 := honest_fixedOps hG.right.left
    have h3 := honest_adviceOps hG.right.right
    refine ⟨Sat.append ((sat_enableFull hcfg P G reg offset).2 ((fullGate_iff cfg P _).2 ?_))
      (((sat_fixedOps cfg P G).2 h2).append (sat_adviceOps cfg P G)), h3⟩
    simp only [Grid.query, add_zero, h2, hin]
    funext i
    have := h3 i
    push_cast at this
    exact this

theorem partialRound_ok {cfg : Config C S r} (hcfg : cfg.Ok) (P : Spec F (r + 1))
    (hinv : Matrix.of P.mds * Matrix.of P.mdsInv = 1) (reg rd offset : ℕ)
    {rc rc' : Fin (r + 1) → F} (hrc : P.roundConstants[rd]? = some rc)
    (hrc' : P.roundConstants[rd + 1]? = some rc') :
    StepOk cfg P reg offset (offset + 1)
      (specRound (.of P.mds) (· ^ 5) false rc' ∘ specRound (.of P.mds) (· ^ 5) false rc)
      (partialRound cfg P reg rd offset) := by
  refine ⟨by omega, fun st n hst => ⟨_, _, partialRound_run cfg P reg rd offset st rc rc' hrc hrc' n,
    fun i => rfl, rfl, ?_, ?_, fun G => ⟨?_, ?_⟩⟩⟩
  · intro c v hv
    rcases Assigned.append.1 hv with hv | hv
    · simp [Assigned] at hv
    rcases Assigned.append.1 hv with hv | hv
    · obtain ⟨i, rfl, -⟩ := assigned_fixedOps.1 hv
      refine ⟨rfl, Or.inr ⟨?_, le_rfl, by push_cast; omega⟩⟩
      rintro ⟨j, hj⟩; exact hcfg.stateA _ _ hj
    rcases Assigned.append.1 hv with hv | hv
    · simp only [Assigned, List.mem_singleton, Op.advice.injEq, reduceCtorEq, or_false] at hv
      obtain ⟨rfl, -⟩ := hv
      refine ⟨rfl, Or.inr ⟨?_, le_rfl, by push_cast; omega⟩⟩
      rintro ⟨j, hj⟩; exact hcfg.sboxState _ hj
    rcases Assigned.append.1 hv with hv | hv
    · obtain ⟨i, rfl, -⟩ := assigned_fixedOps.1 hv
      refine ⟨rfl, Or.inr ⟨?_, le_rfl, by push_cast; omega⟩⟩
      rintro ⟨j, hj⟩; exact hcfg.stateB _ _ hj
    · obtain ⟨i, rfl, -⟩ := assigned_adviceOps.1 hv
      exact ⟨rfl, Or.inl ⟨⟨i, rfl⟩, by push_cast; omega, le_rfl⟩⟩
  · have w0 : ∀ v : F, Consistent
        ([.advice ⟨reg, cfg.partialSbox, offset⟩ v] : List (Op C S F)) := by
      intro v c x y h1 h2
      simp only [Assigned, List.mem_singleton, Op.advice.injEq, reduceCtorEq, or_false] at h1 h2
      rw [h1.2, h2.2]
    have w1 : ∀ v : F, Within ([.advice ⟨reg, cfg.partialSbox, offset⟩ v] : List (Op C S F))
        (fun c => c.row = offset ∧ c.col = cfg.partialSbox) := by
      intro v c w hv
      simp only [Assigned, List.mem_singleton, Op.advice.injEq, reduceCtorEq, or_false] at hv
      obtain ⟨rfl, -⟩ := hv; exact ⟨rfl, rfl⟩
    have w2 : Within (fixedOps reg cfg.rcB offset rc' : List (Op C S F))
        (fun c => c.row = offset ∧ c.col ∈ Set.range cfg.rcB) := by
      intro c v hv; obtain ⟨i, rfl, -⟩ := assigned_fixedOps.1 hv; exact ⟨rfl, i, rfl⟩
    have w3 : ∀ v, Within (adviceOps reg cfg.state (offset + 1) v : List (Op C S F))
        (fun c => c.row = (offset : ℤ) + 1) := by
      intro v c w hv; obtain ⟨i, rfl, -⟩ := assigned_adviceOps.1 hv; push_cast; rfl
    refine Consistent.append (by simp [Consistent, Assigned])
      (Consistent.append (consistent_fixedOps reg hcfg.rcA _ _)
        (Consistent.append (w0 _)
          (Consistent.append (consistent_fixedOps reg hcfg.rcB _ _)
            (consistent_adviceOps reg hcfg.state _ _) w2 (w3 _) ?_)
          (w1 _) (w2.append (w3 _)) ?_)
        (A := fun c => c.row = offset ∧ c.col ∈ Set.range cfg.rcA) ?_
          ((w1 _).append (w2.append (w3 _))) ?_)
      (A := fun _ => False) (B := fun _ => True) ?_ (fun _ _ _ => trivial) ?_
    · rintro c ⟨h1, -⟩ h2; omega
    · rintro c ⟨h1, h1'⟩ (⟨h2, i, h2'⟩ | h2)
      · exact hcfg.sboxB i (h2'.trans h1')
      · omega
    · intro c v hv; obtain ⟨i, rfl, -⟩ := assigned_fixedOps.1 hv; exact ⟨rfl, i, rfl⟩
    · rintro c ⟨h1, i, h1'⟩ (⟨h2, h2'⟩ | ⟨h2, j, h2'⟩ | h2)
      · exact hcfg.sboxA i (h1'.trans h2')
      · exact hcfg.rcAB i j (h1'.trans h2'.symm)
      · omega
    · intro c v hv; simp [Assigned] at hv
    · exact fun _ h _ => h
  · intro hs
    have h1 := (partialGate_iff cfg P hinv _).1 ((sat_enablePartial hcfg P G reg offset).1 hs.left)
    have h2 := (sat_fixedOps cfg P G).1 hs.right.left
    have h3 := (sat_fixedOps cfg P G).1 hs.right.right.right.left
    simp only [Grid.query, add_zero, h2, h3] at h1
    push_cast
    exact h1.2
  · intro hG hin
    have h2 := honest_fixedOps hG.right.left
    have h4 : G reg cfg.partialSbox offset = _ := hG.right.right.left.1 _ _ (List.mem_singleton.2 rfl)
    have h3 := honest_fixedOps hG.right.right.right.left
    have h5 := honest_adviceOps hG.right.right.right.right
    refine ⟨Sat.append ((sat_enablePartial hcfg P G reg offset).2
      ((partialGate_iff cfg P hinv _).2 ⟨?_, ?_⟩))
      (((sat_fixedOps cfg P G).2 h2).append (Sat.append ?_
        (((sat_fixedOps cfg P G).2 h3).append (sat_adviceOps cfg P G)))), h5⟩
    · simp only [Grid.query, add_zero, h2, hin, h4]
    · simp only [Grid.query, add_zero, h2, h3, hin]
      funext i
      have := h5 i
      push_cast at this
      exact this
    · constructor <;> simp

/-! ## The permutation -/

/-- Full and partial rounds in the order of the chip. -/
theorem rounds_chip {α : Type} (f : ℕ → Bool → α → α) (hf hp : ℕ) (s : α) :
    (List.range hf).foldl (fun s i => f (hf + 2 * hp + i) true s)
      ((List.range hp).foldl (fun s i => f (hf + 2 * i + 1) false (f (hf + 2 * i) false s))
        ((List.range hf).foldl (fun s i => f i true s) s))
    = (List.range (2 * hf + 2 * hp)).foldl
        (fun s i => f i (decide (i < hf ∨ hf + 2 * hp ≤ i)) s) s := by
  set g := fun (s : α) (i : ℕ) => f i (decide (i < hf ∨ hf + 2 * hp ≤ i)) s with hg
  have h1 : ∀ k ≤ hf, (List.range k).foldl (fun s i => f i true s) s = (List.range k).foldl g s := by
    intro k hk
    induction k with
    | zero => rfl
    | succ k ih =>
      rw [List.range_succ, List.foldl_append, List.foldl_append, ih (by omega)]
      simp [hg, show k < hf by omega]
  have h2 : ∀ k ≤ hp, (List.range k).foldl
      (fun s i => f (hf + 2 * i + 1) false (f (hf + 2 * i) false s)) ((List.range hf).foldl g s)
      = (List.range (hf + 2 * k)).foldl g s := by
    intro k hk
    induction k with
    | zero => rfl
    | succ k ih =>
      rw [show hf + 2 * (k + 1) = hf + 2 * k + 1 + 1 by ring, List.range_succ, List.foldl_append,
        ih (by omega), List.range_succ (n := hf + 2 * k + 1), List.range_succ (n := hf + 2 * k),
        List.foldl_append, List.foldl_append]
      have e1 : ¬ (hf + 2 * k < hf ∨ hf + 2 * hp ≤ hf + 2 * k) := by omega
      have e2 : ¬ (hf + 2 * k + 1 < hf ∨ hf + 2 * hp ≤ hf + 2 * k + 1) := by omega
      simp only [List.foldl_cons, List.foldl_nil, hg, e1, e2, decide_false]
  have h3 : ∀ k, (List.range k).foldl (fun s i => f (hf + 2 * hp + i) true s)
      ((List.range (hf + 2 * hp)).foldl g s) = (List.range (hf + 2 * hp + k)).foldl g s := by
    intro k
    induction k with
    | zero => rfl
    | succ k ih =>
      rw [List.range_succ, List.foldl_append, ih, ← Nat.add_assoc, List.range_succ (n := _ + k),
        List.foldl_append]
      simp [hg]
  rw [h1 hf le_rfl, h2 hp le_rfl, h3 hf]
  congr 2
  omega

/-- The layout of a chip instruction that computes a function of some cells. -/
structure Layout (n n' : ℕ) (ops : List (Op C S F)) : Prop where
  le : n ≤ n'
  within : Within ops fun c => n ≤ c.reg ∧ c.reg < n'
  consistent : Consistent ops

/-- The copies made by `load`. -/
def copyOps (reg : ℕ) (cols : Fin (r + 1) → C) (st : Words C F r) : List (Op C S F) :=
  (List.finRange (r + 1)).flatMap fun i =>
    [.advice ⟨reg, cols i, 0⟩ (st i).value, .equal ⟨reg, cols i, 0⟩ (st i).cell]

omit [Field F] in
theorem mem_copyOps {reg : ℕ} {cols : Fin (r + 1) → C} {st : Words C F r} {op : Op C S F} :
    op ∈ copyOps reg cols st ↔ ∃ i, op = .advice ⟨reg, cols i, 0⟩ (st i).value ∨
      op = .equal ⟨reg, cols i, 0⟩ (st i).cell := by
  simp [copyOps]

omit [Field F] in
theorem load_run (cfg : Config C S r) (reg : ℕ) (st : Words C F r) (n : ℕ) :
    load cfg reg st n = some (cellsAt reg cfg.state 0 fun i => (st i).value, n,
      copyOps reg cfg.state st) :=
  tabulate_run n fun _ => rfl

omit [Field F] in
theorem assigned_copyOps {reg : ℕ} {cols : Fin (r + 1) → C} {st : Words C F r}
    {c : Cell C} {w : F} : Assigned (copyOps reg cols st : List (Op C S F)) c w ↔
      ∃ i, c = ⟨reg, cols i, 0⟩ ∧ w = (st i).value := by
  simp [Assigned, mem_copyOps]

omit [Field F] in
theorem consistent_copyOps (reg : ℕ) {cols : Fin (r + 1) → C} (h : Function.Injective cols)
    (st : Words C F r) : Consistent (copyOps reg cols st : List (Op C S F)) := by
  intro c x y hx hy
  obtain ⟨i, rfl, rfl⟩ := assigned_copyOps.1 hx
  obtain ⟨j, hj, rfl⟩ := assigned_copyOps.1 hy
  rw [h (Cell.mk.inj hj).2.1]

theorem sat_copyOps (cfg : Config C S r) (P : Spec F (r + 1)) (G : Grid C F) {reg : ℕ}
    {cols : Fin (r + 1) → C} {st : Words C F r} :
    Sat (gates cfg P) G (copyOps reg cols st) ↔
      ∀ i, G reg (cols i) 0 = G.at (st i).cell := by
  rw [sat_iff]
  simp only [mem_copyOps, reduceCtorEq, or_self, exists_false, false_imp_iff, implies_true,
    true_and, and_true, false_or]
  constructor
  · exact fun h i => h _ _ ⟨i, rfl⟩
  · rintro h a b ⟨i, hi⟩
    cases hi; exact h i

/-- **C42**: the permutation chip succeeds on every state.  Any assignment that satisfies its
constraints has the permutation of the input cells in the output cells; the witnesses it computes
are such an assignment; and the witnesses do not contradict each other. -/
theorem permute_ok {cfg : Config C S r} (hcfg : cfg.Ok) (P : Spec F (r + 1)) (hP : configureOk P)
    (hsbox : P.sbox = (· ^ 5)) (hinv : Matrix.of P.mds * Matrix.of P.mdsInv = 1)
    (hc : P.fullRounds + P.partialRounds ≤ P.roundConstants.length) (st : Words C F r) (n : ℕ) :
    ∃ out ops, permute cfg P st n = some (out, n + 1, ops) ∧ Layout n (n + 1) ops ∧
      (fun i => (out i).value) = Poseidon.permute P (fun i => (st i).value) ∧
      ∀ G : Grid C F,
        (Sat (gates cfg P) G ops → (fun i => G.at (out i).cell)
          = Poseidon.permute P fun i => G.at (st i).cell) ∧
        (Honest G ops → (∀ i, G.at (st i).cell = (st i).value) →
          Sat (gates cfg P) G ops ∧ ∀ i, G.at (out i).cell = (out i).value) := by
  obtain ⟨hP1, hP2⟩ := hP
  set hf := P.fullRounds / 2 with hhf
  set hp := P.partialRounds / 2 with hhp
  have ef : P.fullRounds = 2 * hf := by omega
  have ep : P.partialRounds = 2 * hp := by omega
  have hrc : ∀ i < 2 * hf + 2 * hp,
      P.roundConstants[i]? = some (P.roundConstants.getD i 0) := by
    intro i hi
    rw [List.getElem?_eq_getElem (by omega), List.getD_eq_getElem _ _ (by omega)]
  set f : ℕ → Bool → State F (r + 1) → State F (r + 1) := fun i b =>
    specRound (.of P.mds) (· ^ 5) b (P.roundConstants.getD i 0) with hfdef
  have s1 : StepOk cfg P n 0 hf _ _ := StepOk.loop (cfg := cfg) (P := P) (reg := n) id
    (fun i => f i true) (fun i => fullRound cfg P n i i) hf
    fun i hi => fullRound_ok hcfg P n i i (hrc i (by omega))
  have s2 : StepOk cfg P n hf (hf + hp) _ _ := StepOk.loop (cfg := cfg) (P := P) (reg := n)
    (hf + ·) (fun i => f (hf + 2 * i + 1) false ∘ f (hf + 2 * i) false)
    (fun i => partialRound cfg P n (hf + 2 * i) (hf + i)) hp
    fun i hi => partialRound_ok hcfg P hinv n _ _ (hrc _ (by omega)) (hrc _ (by omega))
  have s3 : StepOk cfg P n (hf + hp) (hf + hp + hf) _ _ :=
    StepOk.loop (cfg := cfg) (P := P) (reg := n)
    (hf + hp + ·) (fun i => f (hf + 2 * hp + i) true)
    (fun i => fullRound cfg P n (hf + 2 * hp + i) (hf + hp + i)) hf
    fun i hi => fullRound_ok hcfg P n _ _ (hrc _ (by omega))
  have key : ∀ s, (List.range hf).foldl (fun s i => f (hf + 2 * hp + i) true s)
      ((List.range hp).foldl (fun s i => f (hf + 2 * i + 1) false (f (hf + 2 * i) false s))
        ((List.range hf).foldl (fun s i => f i true s) s)) = Poseidon.permute P s := by
    intro s
    rw [rounds_chip, permute_eq P hP1 hc, specPermute, ← hhf, ep, hsbox]
  obtain ⟨-, h⟩ := s1.comp (s2.comp s3)
  obtain ⟨out, ops, h1, h2, h3, h4, h5, h6⟩ := h
    (cellsAt n cfg.state 0 fun i => (st i).value) (n + 1) fun i => rfl
  refine ⟨out, copyOps n cfg.state st ++ ops, bind_of (load_run cfg n st (n + 1)) h1, ⟨by omega, ?_,
    ?_⟩, h3.trans (key _), fun G => ⟨?_, ?_⟩⟩
  · intro c v hv
    rcases Assigned.append.1 hv with hv | hv
    · obtain ⟨i, rfl, -⟩ := assigned_copyOps.1 hv
      exact ⟨le_rfl, Nat.lt_succ_self n⟩
    · have := (h4 c v hv).1
      omega
  · refine (consistent_copyOps n hcfg.state st).append h5
      (A := fun c => c.row = 0 ∧ c.col ∈ Set.range cfg.state) ?_ h4 ?_
    · intro c v hv
      obtain ⟨i, rfl, -⟩ := assigned_copyOps.1 hv
      exact ⟨rfl, i, rfl⟩
    · rintro c ⟨hr, hcol⟩ ⟨-, ⟨-, h0, -⟩ | ⟨hcol', -⟩⟩
      · rw [hr] at h0; exact absurd h0 (lt_irrefl _)
      · exact hcol' hcol
  · intro hs
    have e0 := (sat_copyOps cfg P G).1 hs.left
    have e1 := (h6 G).1 hs.right
    refine Eq.trans ?_ (e1.trans ((key _).trans ?_))
    · funext i; rw [h2 i]; rfl
    · congr 1; funext i; exact e0 i
  · intro hG hin
    have hl : ∀ i, G n (cfg.state i) 0 = (st i).value := fun i =>
      hG.left.1 _ _ (mem_copyOps.2 ⟨i, Or.inl rfl⟩)
    obtain ⟨e1, e2⟩ := (h6 G).2 hG.right hl
    refine ⟨((sat_copyOps cfg P G).2 fun i => (hl i).trans (hin i).symm).append e1, fun i => ?_⟩
    rw [h2 i]; exact e2 i

end Verif.Pow5
