import Verif.Mul.Incomplete

/-!
# Complete double-and-add: what it computes
-/

namespace Verif.Mul.Complete

open Verif.Region Verif.Ecc Verif.Utilities Verif.RunningSum

variable {C S F : Type} [Field F] [DecidableEq F] {b : F}

/-- The signed base of a row. -/
def rowU (cfg : Config C S) (reg : ℕ) (base : EccPoint C F) (row : ℕ) (k : Bool) : EccPoint C F :=
  ⟨base.x, ⟨⟨reg, cfg.add.yP, row⟩, if !k then -base.y.value else base.y.value⟩⟩

/-- The intermediate point of a row. -/
def rowTmp (cfg : Config C S) (reg : ℕ) (base : EccPoint C F) (row : ℕ) (acc : EccPoint C F)
    (k : Bool) : EccPoint C F := Add.out cfg.add (rowU cfg reg base row k) acc reg row

/-- The accumulator after a row. -/
def rowAcc (cfg : Config C S) (reg : ℕ) (base : EccPoint C F) (row : ℕ) (acc : EccPoint C F)
    (k : Bool) : EccPoint C F :=
  Add.out cfg.add acc (rowTmp cfg reg base row acc k) reg (row + 1)

/-- The operations of a row. -/
def rowOps (cfg : Config C S) (reg : ℕ) (base : EccPoint C F) (row : ℕ) (acc : EccPoint C F)
    (z : F) (k : Bool) : List (Op C S F) :=
  [.advice ⟨reg, cfg.zComplete, (row + 2 : ℕ)⟩ (z * 2 + Incomplete.bitVal k),
    .advice ⟨reg, cfg.zComplete, (row + 1 : ℕ)⟩ base.y.value,
    .equal ⟨reg, cfg.zComplete, (row + 1 : ℕ)⟩ base.y.cell,
    .advice ⟨reg, cfg.add.yP, row⟩ (if !k then -base.y.value else base.y.value)] ++
  Add.ops cfg.add (rowU cfg reg base row k) acc reg row ++
  Add.ops cfg.add acc (rowTmp cfg reg base row acc k) reg (row + 1)

/-- The operations of the loop. -/
def loopOps (cfg : Config C S) (reg : ℕ) (base : EccPoint C F) :
    ℕ → EccPoint C F → F → List Bool → List (Op C S F)
  | _, _, _, [] => []
  | row, acc, z, k :: ks => rowOps cfg reg base row acc z k ++
      loopOps cfg reg base (row + 2) (rowAcc cfg reg base row acc k)
        (z * 2 + Incomplete.bitVal k) ks

/-- The accumulator at the end of the loop. -/
def loopAcc (cfg : Config C S) (reg : ℕ) (base : EccPoint C F) :
    ℕ → EccPoint C F → List Bool → EccPoint C F
  | _, acc, [] => acc
  | row, acc, k :: ks => loopAcc cfg reg base (row + 2) (rowAcc cfg reg base row acc k) ks

/-- The cells of the running sum. -/
def loopZs (cfg : Config C S) (reg : ℕ) : ℕ → F → List Bool → List (ACell C F)
  | _, _, [] => []
  | row, z, k :: ks => ⟨⟨reg, cfg.zComplete, (row + 2 : ℕ)⟩, z * 2 + Incomplete.bitVal k⟩ ::
      loopZs cfg reg (row + 2) (z * 2 + Incomplete.bitVal k) ks

theorem loop_run (cfg : Config C S) (reg : ℕ) (base : EccPoint C F) (row : ℕ) (acc : EccPoint C F)
    (z : ACell C F) (ks : List Bool) (m : ℕ) : loop cfg reg base row acc z ks m
      = some ((loopAcc cfg reg base row acc ks, loopZs cfg reg row z.value ks), m,
          loopOps cfg reg base row acc z.value ks) := by
  induction ks generalizing row acc z with
  | nil => rfl
  | cons k ks ih =>
    unfold loop
    have hp : ∀ {α : Type} (a : α) (n : ℕ), (pure a : M C S F α) n = some (a, n, []) :=
      fun _ _ => rfl
    simp only [bind_apply, assignAdvice, ACell.copyAdvice, constrainEqual, emit, hp, Add.run, ih,
      List.append_nil]
    simp only [loopAcc, loopZs, loopOps, rowOps, List.append_assoc]
    rfl

omit [DecidableEq F] in
theorem enableLoop_run (cfg : Config C S) (reg offset n m : ℕ) :
    (enableLoop cfg reg offset n : M C S F Unit) m = some ((), m, (List.range n).map fun i =>
      .enable cfg.qMulDecomposeVar reg ((2 * i + offset + 1 : ℕ) : ℤ)) := by
  induction n with
  | zero => rfl
  | succ n ih =>
    unfold enableLoop
    rw [bind_apply, ih, List.range_succ, List.map_append]
    rfl

/-- The operations of `assign_region`. -/
def ops (len : ℕ) (cfg : Config C S) (reg offset : ℕ) (bits : List Bool) (base acc : EccPoint C F)
    (z : ACell C F) : List (Op C S F) :=
  ((List.range len).map fun i =>
    .enable cfg.qMulDecomposeVar reg ((2 * i + offset + 1 : ℕ) : ℤ)) ++
  [.advice ⟨reg, cfg.zComplete, offset⟩ z.value, .equal ⟨reg, cfg.zComplete, offset⟩ z.cell] ++
  loopOps cfg reg base offset acc z.value bits

theorem run {len : ℕ} {cfg : Config C S} {reg offset : ℕ} {bits : List Bool}
    {base acc : EccPoint C F} {z : ACell C F} (h : bits.length = len) (m : ℕ) :
    assignRegion len cfg reg offset bits base acc z m
      = some ((loopAcc cfg reg base offset acc bits, loopZs cfg reg offset z.value bits), m,
          ops len cfg reg offset bits base acc z) := by
  unfold assignRegion
  rw [assert_bind h]
  unfold ops
  rw [List.append_assoc]
  refine bind_of (enableLoop_run ..) ?_
  refine bind_of (a := ⟨⟨reg, cfg.zComplete, offset⟩, z.value⟩) (n' := m)
    (ops₁ := [.advice ⟨reg, cfg.zComplete, offset⟩ z.value,
      .equal ⟨reg, cfg.zComplete, offset⟩ z.cell]) rfl ?_
  exact loop_run ..

theorem run_length {len : ℕ} {cfg : Config C S} {reg offset : ℕ} {bits : List Bool}
    {base acc : EccPoint C F} {z : ACell C F} {m : ℕ}
    {r : (EccPoint C F × List (ACell C F)) × ℕ × List (Op C S F)}
    (h : assignRegion len cfg reg offset bits base acc z m = some r) : bits.length = len := by
  obtain ⟨r1, r2, r3⟩ := r
  unfold assignRegion at h
  obtain ⟨_, _, _, _, h1, _, _⟩ := bind_some h
  exact (assert_some h1).1

omit [DecidableEq F] in
/-- The gate of a row. -/
theorem gate_row (cfg : Config C S) (G : Grid C F) (reg row : ℕ)
    (h : ∀ f ∈ ((gates cfg : Gates C S F)[0]'(by simp [gates])).2 (G.query reg ((row + 1 : ℕ) : ℤ)), f = 0) :
    ∃ k : Bool, G reg cfg.zComplete (row + 2 : ℕ)
        = 2 * G reg cfg.zComplete row + Incomplete.bitVal k ∧
      G reg cfg.add.yP row = if !k then -G reg cfg.zComplete (row + 1 : ℕ)
        else G reg cfg.zComplete (row + 1 : ℕ) := by
  have em : ((row + 1 : ℕ) : ℤ) + -1 = (row : ℤ) := by push_cast; ring
  have ep : ((row + 1 : ℕ) : ℤ) + 1 = ((row + 2 : ℕ) : ℤ) := by push_cast; ring
  simp only [gates, List.getElem_cons_zero, Grid.query, em, ep, add_zero, List.mem_cons,
    List.not_mem_nil, or_false, forall_eq_or_imp, forall_eq, boolCheck_iff] at h
  obtain ⟨hk, ht⟩ := h
  rcases hk with hk | hk
  · refine ⟨false, by simp only [Incomplete.bitVal, Bool.false_eq_true, if_false]; linear_combination hk, ?_⟩
    rw [hk, ternary_zero] at ht
    simp only [Bool.not_false, if_true]
    linear_combination ht
  · refine ⟨true, by simp only [Incomplete.bitVal, if_true]; linear_combination hk, ?_⟩
    rw [hk, ternary_one] at ht
    simp only [Bool.not_true, Bool.false_eq_true, if_false]
    linear_combination -ht

theorem loop_sound (hg : Good b) {cfg : Config C S} {reg : ℕ} {base : EccPoint C F} {row : ℕ}
    {acc : EccPoint C F} {zv : F} {ks : List Bool} {G : Grid C F}
    (hs : Sat (Add.gates cfg.add) G (loopOps cfg reg base row acc zv ks))
    (hgate : ∀ i < ks.length, ∀ f ∈ ((gates cfg : Gates C S F)[0]'(by simp [gates])).2
      (G.query reg ((row + 2 * i + 1 : ℕ) : ℤ)), f = 0)
    {P A : Pt b} (hP : Holds G base P) (hA : Holds G acc A) :
    ∃ ls : List Bool, ls.length = ks.length ∧
      (loopZs cfg reg row zv ks).map (fun c => G.at c.cell)
        = zRun (G reg cfg.zComplete row) ls ∧
      Holds G (loopAcc cfg reg base row acc ks) (dadd P A ls) := by
  induction ks generalizing row acc zv A with
  | nil => exact ⟨[], rfl, rfl, hA⟩
  | cons k ks ih =>
    unfold loopOps at hs
    have hs1 := hs.left
    have hs2 := hs.right
    unfold rowOps at hs1
    obtain ⟨k', hz, hy⟩ := gate_row cfg G reg row (hgate 0 (by simp))
    have hP' : enc P = (G.at base.x.cell, G.at base.y.cell) := hP
    have cby : G.at ⟨reg, cfg.zComplete, (row + 1 : ℕ)⟩ = G.at base.y.cell :=
      hs1.equal _ _ (by simp)
    have hU : Holds G (rowU cfg reg base row k) (sgn k' P) := by
      unfold Holds
      rw [enc_sgn hg hP' k', ← cby, Prod.mk.injEq]
      exact ⟨rfl, hy.symm⟩
    have h1 := Add.sound hg (Add.run cfg.add (rowU cfg reg base row k) acc reg row 0) G
      hs1.left.right hU hA
    have h2 := Add.sound hg (Add.run cfg.add acc (rowTmp cfg reg base row acc k) reg (row + 1) 0) G
      hs1.right hA h1
    rw [add_comm (sgn k' P) A] at h2
    obtain ⟨ls, hl, hzs, hh⟩ := ih hs2 (fun i hi => by
      have e : row + 2 + 2 * i + 1 = row + 2 * (i + 1) + 1 := by ring
      rw [e]; exact hgate (i + 1) (by simpa using hi)) h2
    refine ⟨k' :: ls, by simp [hl], ?_, hh⟩
    unfold loopZs zRun
    rw [List.map_cons, hzs, ← hz]
    rfl

/-- **C41**, soundness of complete double-and-add. -/
theorem sound (hg : Good b) {len : ℕ} {cfg : Config C S} {reg offset : ℕ} {bits : List Bool}
    {base acc : EccPoint C F} {z : ACell C F} {m m' : ℕ} {out : EccPoint C F × List (ACell C F)}
    {os : List (Op C S F)}
    (h : assignRegion len cfg reg offset bits base acc z m = some (out, m', os))
    (G : Grid C F) (hs : Sat (Add.gates cfg.add ++ gates cfg) G os) {P A : Pt b}
    (hP : Holds G base P) (hA : Holds G acc A) :
    ∃ ks : List Bool, ks.length = len ∧
      out.2.map (fun c => G.at c.cell) = zRun (G.at z.cell) ks ∧ Holds G out.1 (dadd P A ks) := by
  have hlen := run_length h
  rw [run hlen] at h
  cases h
  have cz : G reg cfg.zComplete offset = G.at z.cell :=
    hs.equal ⟨reg, cfg.zComplete, offset⟩ _ (by simp [ops])
  rw [← cz, ← hlen]
  unfold ops at hs
  refine loop_sound hg (hs.right.mono (fun g h => List.mem_append_left _ h) fun _ h => h) ?_ hP hA
  intro i hi
  refine hs.gates ((gates cfg : Gates C S F)[0]'(by simp [gates]))
    (List.mem_append_right _ (List.getElem_mem _)) reg _ ?_
  refine List.mem_append_left _ (List.mem_append_left _ (List.mem_map.2 ⟨i, ?_, ?_⟩))
  · rw [List.mem_range]; omega
  · have e : 2 * i + offset + 1 = offset + 2 * i + 1 := by ring
    rw [e]; rfl

theorem loop_complete (hg : Good b) {cfg : Config C S} {reg : ℕ} {base : EccPoint C F} {row : ℕ}
    {acc : EccPoint C F} {zv : F} {ks : List Bool} {P A : Pt b} (hP : Val base P) (hA : Val acc A) :
    Val (loopAcc cfg reg base row acc ks) (dadd P A ks) ∧
    (loopZs cfg reg row zv ks).map ACell.value = zRun zv ks ∧
    ∀ G, Honest G (loopOps cfg reg base row acc zv ks) → Holds G base P → Holds G acc A →
      G reg cfg.zComplete row = zv →
      Sat (Add.gates cfg.add) G (loopOps cfg reg base row acc zv ks) ∧
      (∀ i < ks.length, ∀ f ∈ ((gates cfg : Gates C S F)[0]'(by simp [gates])).2
        (G.query reg ((row + 2 * i + 1 : ℕ) : ℤ)), f = 0) ∧
      Holds G (loopAcc cfg reg base row acc ks) (dadd P A ks) ∧
      ∀ c ∈ loopZs cfg reg row zv ks, G.at c.cell = c.value := by
  induction ks generalizing row acc zv A with
  | nil =>
    refine ⟨hA, rfl, fun G hG hGP hGA hz => ⟨Sat.nil _ _, ?_, hGA, ?_⟩⟩
    · intro i hi; simp at hi
    · intro c hc; simp [loopZs] at hc
  | cons k ks ih =>
    have hP' : enc P = (base.x.value, base.y.value) := hP
    have hUv : Val (rowU cfg reg base row k) (sgn k P) := enc_sgn hg hP' k
    obtain ⟨v1, c1⟩ := Add.complete hg
      (Add.run cfg.add (rowU cfg reg base row k) acc reg row 0) hUv hA
    obtain ⟨v2, c2⟩ := Add.complete hg
      (Add.run cfg.add acc (rowTmp cfg reg base row acc k) reg (row + 1) 0) hA v1
    rw [add_comm (sgn k P) A] at v2 c2
    obtain ⟨v3, zz, c3⟩ := ih (row := row + 2) (zv := zv * 2 + Incomplete.bitVal k) (A := dstep P A k) v2
    have ez : zv * 2 + Incomplete.bitVal k = 2 * zv + Incomplete.bitVal k := by ring
    refine ⟨v3, ?_, ?_⟩
    · unfold loopZs zRun
      rw [List.map_cons, zz, ez]
    intro G hG hGP hGA hz
    have hGP' : enc P = (G.at base.x.cell, G.at base.y.cell) := hGP
    unfold loopOps at hG ⊢
    have hG1 := hG.left
    unfold rowOps at hG1
    have gz2 : G reg cfg.zComplete (row + 2 : ℕ) = zv * 2 + Incomplete.bitVal k :=
      hG1.1 ⟨reg, cfg.zComplete, (row + 2 : ℕ)⟩ _ (by simp)
    have gby : G reg cfg.zComplete (row + 1 : ℕ) = base.y.value :=
      hG1.1 ⟨reg, cfg.zComplete, (row + 1 : ℕ)⟩ _ (by simp)
    have gyp : G reg cfg.add.yP row = if !k then -base.y.value else base.y.value :=
      hG1.1 ⟨reg, cfg.add.yP, row⟩ _ (by simp)
    have gbe : base.y.value = G.at base.y.cell := by
      rw [hP', Prod.mk.injEq] at hGP'; exact hGP'.2
    have hU : Holds G (rowU cfg reg base row k) (sgn k P) := by
      refine hUv.trans ?_
      rw [hP', Prod.mk.injEq] at hGP'
      rw [Prod.mk.injEq]
      exact ⟨hGP'.1, gyp.symm⟩
    obtain ⟨s1, h1⟩ := c1 G hG1.left.right hU hGA
    rw [add_comm (sgn k P) A] at h1
    obtain ⟨s2, h2⟩ := c2 G hG1.right hGA h1
    obtain ⟨s3, g3, h3, z3⟩ := c3 G hG.right hGP h2 gz2
    refine ⟨?_, ?_, h3, ?_⟩
    · refine Sat.append ?_ s3
      unfold rowOps
      refine Sat.append (Sat.append ?_ s1) s2
      constructor
      · intro g _ r row' hm; simp at hm
      · intro x y hm
        simp only [List.mem_cons, reduceCtorEq, Op.equal.injEq, List.not_mem_nil, or_false,
          false_or] at hm
        obtain ⟨rfl, rfl⟩ := hm
        exact gby.trans gbe
      · intro x v hm; simp at hm
      · intro x v hm; simp at hm
    · intro i hi
      cases i with
      | zero =>
        have em : ((row + 2 * 0 + 1 : ℕ) : ℤ) + -1 = (row : ℤ) := by push_cast; ring
        have ep : ((row + 2 * 0 + 1 : ℕ) : ℤ) + 1 = ((row + 2 : ℕ) : ℤ) := by push_cast; ring
        have e0 : ((row + 2 * 0 + 1 : ℕ) : ℤ) = ((row + 1 : ℕ) : ℤ) := rfl
        simp only [gates, List.getElem_cons_zero, Grid.query, em, ep, add_zero, List.mem_cons,
          List.not_mem_nil, or_false, forall_eq_or_imp, forall_eq, boolCheck_iff, gz2, hz, gyp]
        rw [e0, gby]
        have ek : zv * 2 + Incomplete.bitVal k - 2 * zv = Incomplete.bitVal k := by ring
        rw [ek]
        cases k
        · simp [Incomplete.bitVal, ternary_zero]
        · simp [Incomplete.bitVal, ternary_one]
      | succ i =>
        have e : row + 2 * (i + 1) + 1 = row + 2 + 2 * i + 1 := by ring
        rw [e]
        exact g3 i (by simpa using hi)
    · intro c hc
      unfold loopZs at hc
      rcases List.mem_cons.1 hc with rfl | hc
      · exact gz2
      · exact z3 c hc

/-- Selectors enabled. -/
theorem ops_enables {len : ℕ} {cfg : Config C S} {reg offset : ℕ} {bits : List Bool}
    {base acc : EccPoint C F} {z : ACell C F} {x : S} {r : ℕ} {row : ℤ}
    (h : .enable x r row ∈ ops len cfg reg offset bits base acc z) :
    x = cfg.qMulDecomposeVar ∧ r = reg ∧ (∃ i < len, row = ((2 * i + offset + 1 : ℕ) : ℤ)) ∨
      x = cfg.add.qAdd := by
  have hl : ∀ (ks : List Bool) (row' : ℕ) (acc : EccPoint C F) (zv : F),
      .enable x r row ∈ loopOps cfg reg base row' acc zv ks → x = cfg.add.qAdd := by
    intro ks
    induction ks with
    | nil => intro row' acc zv h; simp [loopOps] at h
    | cons k ks ih =>
      intro row' acc zv h
      unfold loopOps at h
      rcases List.mem_append.1 h with h | h
      · simp only [rowOps, Add.ops, List.mem_append, List.mem_cons, reduceCtorEq, Op.enable.injEq,
          List.not_mem_nil, or_false, false_or] at h
        rcases h with h | h <;> exact h.1
      · exact ih _ _ _ h
  unfold ops at h
  rcases List.mem_append.1 h with h | h
  · rcases List.mem_append.1 h with h | h
    · obtain ⟨i, hi, e⟩ := List.mem_map.1 h
      injection e with e1 e2 e3
      exact .inl ⟨e1.symm, e2.symm, i, List.mem_range.1 hi, e3.symm⟩
    · simp at h
  · exact .inr (hl _ _ _ _ h)

/-- **C41**, completeness of complete double-and-add. -/
theorem complete (hg : Good b) {len : ℕ} {cfg : Config C S}
    (hsel : cfg.qMulDecomposeVar ≠ cfg.add.qAdd) {reg offset : ℕ} {bits : List Bool}
    {base acc : EccPoint C F} {z : ACell C F} (hlen : bits.length = len) {P A : Pt b}
    (hP : Val base P) (hA : Val acc A) (m : ℕ) :
    ∃ out os, assignRegion len cfg reg offset bits base acc z m = some (out, m, os) ∧
      Val out.1 (dadd P A bits) ∧ out.2.map ACell.value = zRun z.value bits ∧
      ∀ G, Honest G os → Holds G base P → Holds G acc A → G.at z.cell = z.value →
        Sat (Add.gates cfg.add ++ gates cfg) G os ∧ Holds G out.1 (dadd P A bits) ∧
        ∀ c ∈ out.2, G.at c.cell = c.value := by
  obtain ⟨v, zz, c⟩ := loop_complete hg (cfg := cfg) (reg := reg) (row := offset) (zv := z.value)
    (ks := bits) hP hA
  refine ⟨_, _, run hlen m, v, zz, fun G hG hGP hGA hz => ?_⟩
  have hG' := hG
  unfold ops at hG'
  have gz : G reg cfg.zComplete offset = z.value :=
    hG.1 ⟨reg, cfg.zComplete, offset⟩ _ (by simp [ops])
  obtain ⟨s, g, h, zc⟩ := c G hG'.right hGP hGA gz
  refine ⟨⟨?_, ?_, ?_, fun x v hm => hG.2 x v hm⟩, h, zc⟩
  · intro g' hg' r row hm
    rcases List.mem_append.1 hg' with hg' | hg'
    · refine s.gates g' hg' r row ?_
      unfold ops at hm
      rcases List.mem_append.1 hm with hm | hm
      · exfalso
        rcases List.mem_append.1 hm with hm | hm
        · obtain ⟨i, hi, e⟩ := List.mem_map.1 hm
          injection e with e1 e2 e3
          have : g'.1 = cfg.add.qAdd := by
            rw [List.mem_singleton.1 hg']
          exact hsel (e1.trans this)
        · simp at hm
      · exact hm
    · have hg'' := List.mem_singleton.1 hg'
      rcases ops_enables hm with ⟨-, rfl, i, hi, rfl⟩ | e
      · have e : 2 * i + offset + 1 = offset + 2 * i + 1 := by ring
        rw [e, hg'']
        exact g i (by omega)
      · rw [hg''] at e
        exact absurd e hsel
  · intro x y hm
    unfold ops at hm
    rcases List.mem_append.1 hm with hm | hm
    · simp only [List.mem_append, List.mem_map, reduceCtorEq, and_false, exists_false, false_or,
        List.mem_cons, Op.equal.injEq, List.not_mem_nil, or_false] at hm
      obtain ⟨rfl, rfl⟩ := hm
      rw [hz]; exact gz
    · exact s.equal x y hm
  · intro x v hm
    unfold ops at hm
    rcases List.mem_append.1 hm with hm | hm
    · simp at hm
    · exact s.const x v hm

end Verif.Mul.Complete
