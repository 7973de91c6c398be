import Verif.Msm.Model
import Verif.Multiexp.Props
import Mathlib.AlgebraicGeometry.EllipticCurve.Affine.Point
import Mathlib.Algebra.Module.ZMod
import Mathlib.Algebra.Field.ZMod
import Mathlib.GroupTheory.OrderOfElement
import Mathlib.Tactic.LinearCombination
import Mathlib.Tactic.Ring
import Mathlib.Tactic.Module
import Mathlib.Tactic.NormNum.Prime

/-!
# C22: MSM accumulators are linear

`Prog` is a program over the public methods of `MSM`, `Prog.formal` the linear combination it
describes, written without reference to the accumulator.
-/

namespace Verif.Msm

variable {F K A : Type} [Field F] [Field K] [LinearOrder K] [AddCommGroup A] [Module F A]

open Verif.Multiexp in
/-- `multiexp` is the only outcome of the detailed model of `best_multiexp`, for every thread
count, admissible window and reduction schedule. -/
theorem multiexp_refines (toRepr : F → List ℕ)
    (hrepr : ∀ x, WF (toRepr x) ∧ ((leBytes (toRepr x) : ℕ) : F) = x)
    (numThreads lnCeil : ℕ) (coeffs : List F) (bases : List A) (hc : WindowOk bases.length lnCeil)
    (r : Option A) :
    BestMultiexp numThreads lnCeil (coeffs.map toRepr) bases r ↔ r = multiexp coeffs bases := by
  have hw : ∀ s ∈ coeffs.map toRepr, WF s := by
    intro s hs; obtain ⟨x, _, rfl⟩ := List.mem_map.1 hs; exact (hrepr x).1
  obtain ⟨h1, h2⟩ := bestMultiexp_total numThreads lnCeil (coeffs.map toRepr) bases hw hc
  unfold multiexp
  split_ifs with hl
  · constructor
    · exact bestMultiexp_field toRepr hrepr numThreads lnCeil coeffs bases hl hc r
    · rintro rfl
      have := h1 (by simpa using hl)
      rwa [Option.some.inj (bestMultiexp_field toRepr hrepr numThreads lnCeil coeffs bases hl hc
        _ this)] at this
  · exact h2 (by simpa using hl) r

/-! ## Specification -/

/-- A program over the methods of `MSM`; every accumulator is the result of one. -/
inductive Prog (F A : Type)
  | new
  | append (p : Prog F A) (scalar : F) (point : A)
  | constant (p : Prog F A) (c : F)
  | gScalars (p : Prog F A) (l : List F)
  | wScalar (p : Prog F A) (c : F)
  | uScalar (p : Prog F A) (c : F)
  | scale (p : Prog F A) (c : F)
  | addMsm (p q : Prog F A)

/-- The formal linear combination. -/
def Prog.formal (pr : Params A) : Prog F A → A
  | .new => 0
  | .append p s a => p.formal pr + s • a
  | .constant p c => p.formal pr + c • pr.g.headD 0
  | .gScalars p l => p.formal pr + ((l.zip pr.g).map fun e => e.1 • e.2).sum
  | .wScalar p c => p.formal pr + c • pr.w
  | .uScalar p c => p.formal pr + c • pr.u
  | .scale p c => c • p.formal pr
  | .addMsm p q => p.formal pr + q.formal pr

/-- The documented precondition of `add_to_g_scalars`. -/
def Prog.Ok (pr : Params A) : Prog F A → Prop
  | .new => True
  | .gScalars p l => p.Ok pr ∧ l.length = pr.n
  | .addMsm p q => p.Ok pr ∧ q.Ok pr
  | .append p _ _ | .constant p _ | .wScalar p _ | .uScalar p _ | .scale p _ => p.Ok pr

/-- Running the program on the model. -/
def Prog.run (cv : Coords K A) (pr : Params A) : Prog F A → Option (MSM F K)
  | .new => some MSM.new
  | .append p s a => (p.run cv pr).bind fun m => m.appendTerm cv s a
  | .constant p c => (p.run cv pr).bind fun m => m.addConstantTerm pr c
  | .gScalars p l => (p.run cv pr).bind fun m => m.addToGScalars pr l
  | .wScalar p c => (p.run cv pr).map fun m => m.addToWScalar c
  | .uScalar p c => (p.run cv pr).map fun m => m.addToUScalar c
  | .scale p c => (p.run cv pr).map fun m => m.scale c
  | .addMsm p q => (p.run cv pr).bind fun m => (q.run cv pr).bind fun o => m.addMsm pr o

/-- Parameters with `n ≥ 1` generators. -/
structure Params.Ok (pr : Params A) : Prop where
  len : pr.g.length = pr.n
  pos : 0 < pr.n

/-! ## Invariant -/

/-- The sum denoted by the map. -/
def otherSum (cv : Coords K A) (l : List (K × F × K)) : A :=
  (l.map fun e => e.2.1 • (cv.fromXY e.1 e.2.2).getD 0).sum

/-- Keys and y-coordinates are those of points. -/
def OnCurve (cv : Coords K A) (l : List (K × F × K)) : Prop :=
  ∀ e ∈ l, ∃ p, cv.coords p = some (e.1, e.2.2)

/-- Combination with a list of bases. -/
def dot (l : List F) (g : List A) : A := ((l.zip g).map fun e => e.1 • e.2).sum

/-- The accumulator `m` is well formed and denotes `v`. -/
structure Holds (cv : Coords K A) (pr : Params A) (m : MSM F K) (v : A) : Prop where
  curve : OnCurve cv m.other
  len : ∀ gs, m.gScalars = some gs → gs.length = pr.n
  val : v = otherSum cv m.other + m.wScalar.getD 0 • pr.w + m.uScalar.getD 0 • pr.u
    + dot (m.gScalars.getD []) pr.g

theorem upsert_spec {cv : Coords K A} (hv : cv.Valid) (s : F) {p : A} {x y : K}
    (hp : cv.coords p = some (x, y)) (l : List (K × F × K)) (hl : OnCurve cv l) :
    ∃ l', upsert x s y l = some l' ∧ OnCurve cv l' ∧ otherSum cv l' = otherSum cv l + s • p := by
  have hxy := hv.fromXY_eq p x y hp
  induction l with
  | nil =>
    refine ⟨_, rfl, ?_, ?_⟩
    · intro e he; simp only [List.mem_singleton] at he; subst he; exact ⟨p, hp⟩
    · simp [otherSum, hxy]
  | cons e t ih =>
    obtain ⟨x', s', y'⟩ := e
    obtain ⟨q, hq⟩ := hl _ List.mem_cons_self
    have ht : OnCurve cv t := fun e he => hl e (List.mem_cons_of_mem _ he)
    have hq' := hv.fromXY_eq q _ _ hq
    dsimp only at hq hq'
    simp only [upsert]
    by_cases hx : x = x'
    · subst hx
      rw [if_pos rfl]
      by_cases hy : y' = y
      · subst hy
        have : q = p := Option.some.inj (hq'.symm.trans hxy)
        subst this
        refine ⟨_, if_pos rfl, ?_, ?_⟩
        · intro e he
          rcases List.mem_cons.1 he with rfl | he
          · exact ⟨q, hq⟩
          · exact ht e he
        · simp only [otherSum, List.map_cons, List.sum_cons, hq', Option.getD_some, add_smul]
          abel
      · have hy' : y' = -y := (hv.same_x q p x y' y hq hp).resolve_left hy
        have : q = -p := by
          have h1 := hv.fromXY_eq _ _ _ (hv.neg p x y hp)
          rw [← hy', hq'] at h1
          exact Option.some.inj h1
        refine ⟨_, by rw [if_neg hy, if_pos hy'], ?_, ?_⟩
        · intro e he
          rcases List.mem_cons.1 he with rfl | he
          · exact ⟨q, hq⟩
          · exact ht e he
        · simp only [otherSum, List.map_cons, List.sum_cons, hq', Option.getD_some, sub_smul, this,
            smul_neg]
          abel
    · rw [if_neg hx]
      by_cases hlt : x < x'
      · refine ⟨_, if_pos hlt, ?_, ?_⟩
        · intro e he
          rcases List.mem_cons.1 he with rfl | he
          · exact ⟨p, hp⟩
          · exact hl e he
        · simp only [otherSum, List.map_cons, List.sum_cons, hxy, Option.getD_some]
          abel
      · rw [if_neg hlt]
        obtain ⟨l', h1, h2, h3⟩ := ih ht
        refine ⟨_, by rw [h1]; rfl, ?_, ?_⟩
        · intro e he
          rcases List.mem_cons.1 he with rfl | he
          · exact ⟨q, hq⟩
          · exact h2 e he
        · simp only [otherSum, List.map_cons, List.sum_cons] at h3 ⊢
          rw [h3]; abel

theorem fold_upsert {cv : Coords K A} (hv : cv.Valid) (o : List (K × F × K)) (ho : OnCurve cv o)
    (l : List (K × F × K)) (hl : OnCurve cv l) :
    ∃ l', o.foldlM (fun acc e => upsert e.1 e.2.1 e.2.2 acc) l = some l' ∧ OnCurve cv l' ∧
      otherSum cv l' = otherSum cv l + otherSum cv o := by
  induction o generalizing l with
  | nil => exact ⟨l, rfl, hl, by simp [otherSum]⟩
  | cons e t ih =>
    obtain ⟨p, hp⟩ := ho _ List.mem_cons_self
    obtain ⟨l₁, h1, h2, h3⟩ := upsert_spec hv e.2.1 hp l hl
    obtain ⟨l₂, h4, h5, h6⟩ := ih (fun e he => ho e (List.mem_cons_of_mem _ he)) l₁ h2
    refine ⟨l₂, ?_, h5, ?_⟩
    · rw [List.foldlM_cons, h1]; exact h4
    · rw [h6, h3]
      simp only [otherSum, List.map_cons, List.sum_cons, hv.fromXY_eq _ _ _ hp, Option.getD_some]
      abel

theorem dot_cons (a : F) (l : List F) (b : A) (g : List A) :
    dot (a :: l) (b :: g) = a • b + dot l g := by simp [dot]

theorem dot_nil (g : List A) : dot ([] : List F) g = 0 := by simp [dot]

theorem dot_zipWith_add (l m : List F) (g : List A) (h : l.length = m.length) :
    dot (l.zipWith (· + ·) m) g = dot l g + dot m g := by
  induction l generalizing m g with
  | nil => cases m <;> simp_all [dot]
  | cons a l ih =>
    cases m with
    | nil => simp at h
    | cons b m =>
      cases g with
      | nil => simp [dot]
      | cons x g =>
        simp only [List.zipWith_cons_cons, dot_cons, ih m g (by simpa using h), add_smul]
        abel

theorem dot_map_mul (l : List F) (c : F) (g : List A) : dot (l.map (· * c)) g = c • dot l g := by
  induction l generalizing g with
  | nil => simp [dot]
  | cons a l ih =>
    cases g with
    | nil => simp [dot]
    | cons x g => simp only [List.map_cons, dot_cons, ih, smul_add, smul_smul, mul_comm c]

theorem dot_replicate_zero (n : ℕ) (g : List A) : dot (List.replicate n (0 : F)) g = 0 := by
  induction n generalizing g with
  | zero => simp [dot]
  | succ n ih => cases g with
    | nil => simp [dot]
    | cons x g => simp [List.replicate_succ, dot_cons, ih]

theorem holds_new (cv : Coords K A) (pr : Params A) : Holds cv pr (MSM.new : MSM F K) 0 where
  curve := by simp [OnCurve, MSM.new]
  len := by simp [MSM.new]
  val := by simp [MSM.new, otherSum, dot]

theorem holds_append {cv : Coords K A} (hv : cv.Valid) {pr : Params A} {m : MSM F K} {v : A}
    (h : Holds cv pr m v) (s : F) (p : A) :
    ∃ m', m.appendTerm cv s p = some m' ∧ Holds cv pr m' (v + s • p) := by
  unfold MSM.appendTerm
  rcases hc : cv.coords p with _ | ⟨x, y⟩
  · exact ⟨m, rfl, by rw [(hv.none_iff p).1 hc, smul_zero, add_zero]; exact h⟩
  · obtain ⟨o, h1, h2, h3⟩ := upsert_spec hv s hc m.other h.curve
    refine ⟨{ m with other := o }, by dsimp only; rw [h1]; rfl, h2, h.len, ?_⟩
    rw [h.val]; dsimp only; rw [h3]; abel

theorem holds_gScalars {cv : Coords K A} {pr : Params A} {m : MSM F K} {v : A}
    (h : Holds cv pr m v) (l : List F) (hl : l.length = pr.n) :
    ∃ m', m.addToGScalars pr l = some m' ∧ Holds cv pr m' (v + dot l pr.g) := by
  unfold MSM.addToGScalars
  rw [if_pos hl]
  rcases hg : m.gScalars with _ | gs
  · refine ⟨_, rfl, h.curve, ?_, ?_⟩
    · intro gs hgs; cases hgs; exact hl
    · rw [h.val, hg]; simp only [Option.getD_none, Option.getD_some, dot_nil]; abel
  · refine ⟨_, rfl, h.curve, ?_, ?_⟩
    · intro gs' hgs; cases hgs; simp [h.len gs hg, hl]
    · rw [h.val, hg]
      simp only [Option.getD_some]
      rw [dot_zipWith_add _ _ _ (by rw [h.len gs hg, hl])]; abel

theorem holds_constant {cv : Coords K A} {pr : Params A} (hpr : pr.Ok) {m : MSM F K} {v : A}
    (h : Holds cv pr m v) (c : F) :
    ∃ m', m.addConstantTerm pr c = some m' ∧ Holds cv pr m' (v + c • pr.g.headD 0) := by
  have hlen : (m.gScalars.getD (List.replicate pr.n 0)).length = pr.n := by
    rcases hg : m.gScalars with _ | gs
    · simp
    · exact h.len gs hg
  have hdot : dot (m.gScalars.getD []) pr.g
      = dot (m.gScalars.getD (List.replicate pr.n 0)) pr.g := by
    rcases hg : m.gScalars with _ | gs
    · simp [dot_nil, dot_replicate_zero]
    · rfl
  unfold MSM.addConstantTerm
  have hpos := hpr.pos
  have hgl := hpr.len
  rcases hg : m.gScalars.getD (List.replicate pr.n 0) with _ | ⟨g₀, gs⟩
  · rw [hg] at hlen; simp at hlen; omega
  · rw [hg] at hlen hdot
    refine ⟨_, rfl, h.curve, ?_, ?_⟩
    · intro gs' hgs; cases hgs; simpa using hlen
    · rw [h.val, hdot]
      rcases hG : pr.g with _ | ⟨b, bs⟩
      · rw [hG] at hgl; simp at hgl; omega
      · simp only [Option.getD_some, dot_cons, add_smul, List.headD_cons]; abel

theorem holds_w {cv : Coords K A} {pr : Params A} {m : MSM F K} {v : A}
    (h : Holds cv pr m v) (c : F) : Holds cv pr (m.addToWScalar c) (v + c • pr.w) where
  curve := h.curve
  len := h.len
  val := by
    rw [h.val]
    rcases hw : m.wScalar with _ | w <;> simp [MSM.addToWScalar, hw, add_smul] <;> abel

theorem holds_u {cv : Coords K A} {pr : Params A} {m : MSM F K} {v : A}
    (h : Holds cv pr m v) (c : F) : Holds cv pr (m.addToUScalar c) (v + c • pr.u) where
  curve := h.curve
  len := h.len
  val := by
    rw [h.val]
    rcases hw : m.uScalar with _ | w <;> simp [MSM.addToUScalar, hw, add_smul] <;> abel

theorem holds_scale {cv : Coords K A} {pr : Params A} {m : MSM F K} {v : A}
    (h : Holds cv pr m v) (c : F) : Holds cv pr (m.scale c) (c • v) where
  curve := by
    intro e he
    obtain ⟨e', he', rfl⟩ := List.mem_map.1 he
    exact h.curve e' he'
  len := by
    intro gs hgs
    rcases hg : m.gScalars with _ | g
    · simp [MSM.scale, hg] at hgs
    · simp only [MSM.scale, hg, Option.map_some, Option.some.injEq] at hgs
      subst hgs; simpa using h.len g hg
  val := by
    have ho : otherSum cv (m.scale c).other = c • otherSum cv m.other := by
      simp only [otherSum, MSM.scale, List.map_map, List.smul_sum]
      congr 1
      apply List.map_congr_left
      intro e _
      simp [smul_smul, mul_comm c]
    rw [h.val, ho, smul_add, smul_add, smul_add]
    congr 1
    · congr 1
      · congr 1
        rcases hw : m.wScalar with _ | w <;> simp [MSM.scale, hw, smul_smul, mul_comm c]
      · rcases hw : m.uScalar with _ | w <;> simp [MSM.scale, hw, smul_smul, mul_comm c]
    · rcases hw : m.gScalars with _ | w <;> simp [MSM.scale, hw, dot_map_mul, dot_nil]

theorem holds_add {cv : Coords K A} (hv : cv.Valid) {pr : Params A} {m o : MSM F K} {v w : A}
    (h : Holds cv pr m v) (ho : Holds cv pr o w) :
    ∃ m', m.addMsm pr o = some m' ∧ Holds cv pr m' (v + w) := by
  obtain ⟨l, h1, h2, h3⟩ := fold_upsert hv o.other ho.curve m.other h.curve
  have hm : Holds cv pr { m with other := l } (v + otherSum cv o.other) :=
    ⟨h2, h.len, by rw [h.val]; dsimp only; rw [h3]; abel⟩
  obtain ⟨m₁, h4, h5⟩ : ∃ m₁, o.gScalars.elim (some { m with other := l })
      (({ m with other := l } : MSM F K).addToGScalars pr) = some m₁ ∧
      Holds cv pr m₁ (v + otherSum cv o.other + dot (o.gScalars.getD []) pr.g) := by
    rcases hg : o.gScalars with _ | gs
    · exact ⟨_, rfl, by simpa [dot_nil] using hm⟩
    · exact holds_gScalars hm gs (ho.len gs hg)
  have h6 : Holds cv pr (o.wScalar.elim m₁ m₁.addToWScalar)
      (v + otherSum cv o.other + dot (o.gScalars.getD []) pr.g + o.wScalar.getD 0 • pr.w) := by
    rcases hg : o.wScalar with _ | c
    · simpa using h5
    · exact holds_w h5 c
  have h7 : Holds cv pr (o.uScalar.elim (o.wScalar.elim m₁ m₁.addToWScalar)
      (o.wScalar.elim m₁ m₁.addToWScalar).addToUScalar)
      (v + otherSum cv o.other + dot (o.gScalars.getD []) pr.g + o.wScalar.getD 0 • pr.w
        + o.uScalar.getD 0 • pr.u) := by
    rcases hg : o.uScalar with _ | c
    · simpa using h6
    · exact holds_u h6 c
  refine ⟨o.uScalar.elim (o.wScalar.elim m₁ m₁.addToWScalar)
      (o.wScalar.elim m₁ m₁.addToWScalar).addToUScalar, ?_, ?_⟩
  · unfold MSM.addMsm
    rw [h1, Option.bind_some, h4, Option.bind_some]
  · rw [ho.val]
    convert h7 using 1
    abel

/-- Every program runs without a failed assertion, and its accumulator denotes its formal
combination. -/
theorem run_spec {cv : Coords K A} (hv : cv.Valid) {pr : Params A} (hpr : pr.Ok) (p : Prog F A)
    (hp : p.Ok pr) : ∃ m, p.run cv pr = some m ∧ Holds cv pr m (p.formal pr) := by
  induction p with
  | new => exact ⟨_, rfl, holds_new cv pr⟩
  | append p s a ih =>
    obtain ⟨m, h1, h2⟩ := ih hp
    obtain ⟨m', h3, h4⟩ := holds_append hv h2 s a
    exact ⟨m', by simp [Prog.run, h1, h3], h4⟩
  | constant p c ih =>
    obtain ⟨m, h1, h2⟩ := ih hp
    obtain ⟨m', h3, h4⟩ := holds_constant hpr h2 c
    exact ⟨m', by simp [Prog.run, h1, h3], h4⟩
  | gScalars p l ih =>
    obtain ⟨m, h1, h2⟩ := ih hp.1
    obtain ⟨m', h3, h4⟩ := holds_gScalars h2 l hp.2
    exact ⟨m', by simp [Prog.run, h1, h3], h4⟩
  | wScalar p c ih =>
    obtain ⟨m, h1, h2⟩ := ih hp
    exact ⟨_, by simp [Prog.run, h1], holds_w h2 c⟩
  | uScalar p c ih =>
    obtain ⟨m, h1, h2⟩ := ih hp
    exact ⟨_, by simp [Prog.run, h1], holds_u h2 c⟩
  | scale p c ih =>
    obtain ⟨m, h1, h2⟩ := ih hp
    exact ⟨_, by simp [Prog.run, h1], holds_scale h2 c⟩
  | addMsm p q ihp ihq =>
    obtain ⟨m, h1, h2⟩ := ihp hp.1
    obtain ⟨o, h3, h4⟩ := ihq hp.2
    obtain ⟨m', h5, h6⟩ := holds_add hv h2 h4
    exact ⟨m', by simp [Prog.run, h1, h3, h5], h6⟩

theorem mapM_fromXY {cv : Coords K A} (hv : cv.Valid) (l : List (K × F × K)) (hl : OnCurve cv l) :
    (l.mapM fun e => cv.fromXY e.1 e.2.2) = some (l.map fun e => (cv.fromXY e.1 e.2.2).getD 0) := by
  induction l with
  | nil => rfl
  | cons e t ih =>
    obtain ⟨p, hp⟩ := hl _ List.mem_cons_self
    rw [List.mapM_cons, ih fun e he => hl e (List.mem_cons_of_mem _ he), hv.fromXY_eq _ _ _ hp]
    simp [hv.fromXY_eq _ _ _ hp]

theorem zip_map_sum (l : List (K × F × K)) (f : K × F × K → A) :
    dot (l.map (·.2.1)) (l.map f) = (l.map fun e => e.2.1 • f e).sum := by
  induction l with
  | nil => simp [dot]
  | cons e t ih => simp only [List.map_cons, dot_cons, ih, List.sum_cons]

theorem dot_append (l l' : List F) (g g' : List A) (h : l.length = g.length) :
    dot (l ++ l') (g ++ g') = dot l g + dot l' g' := by
  simp [dot, List.zip_append h]

/-- `eval` of a well-formed accumulator does not panic and decides whether its value is the
identity. -/
theorem eval_spec [DecidableEq A] {cv : Coords K A} (hv : cv.Valid) {pr : Params A} (hpr : pr.Ok)
    {m : MSM F K} {v : A} (h : Holds cv pr m v) : m.eval cv pr = some (decide (v = 0)) := by
  unfold MSM.eval MSM.bases
  rw [mapM_fromXY hv _ h.curve]
  simp only [Option.map_some, Option.bind_some]
  unfold multiexp MSM.scalars
  have e1 : m.wScalar.toList.length = (if m.wScalar.isSome then [pr.w] else []).length := by
    cases m.wScalar <;> rfl
  have e2 : m.uScalar.toList.length = (if m.uScalar.isSome then [pr.u] else []).length := by
    cases m.uScalar <;> rfl
  have e3 : (m.gScalars.getD []).length = (if m.gScalars.isSome then pr.g else []).length := by
    rcases hg : m.gScalars with _ | gs
    · rfl
    · simpa [hpr.len] using h.len gs hg
  rw [if_pos (by simp only [List.length_append, List.length_map, e1, e2, e3])]
  simp only [Option.map_some, Option.some.injEq]
  suffices hs : ∀ x : A, x = v → decide (x = 0) = decide (v = 0) by
    apply hs
    change dot _ _ = _
    rw [dot_append _ _ _ _ (by simp only [List.length_append, List.length_map, e1, e2]),
      dot_append _ _ _ _ (by simp only [List.length_append, List.length_map, e1]),
      dot_append _ _ _ _ (by simp), zip_map_sum, h.val]
    have f1 : dot m.wScalar.toList (if m.wScalar.isSome then [pr.w] else [])
        = m.wScalar.getD 0 • pr.w := by cases m.wScalar <;> simp [dot]
    have f2 : dot m.uScalar.toList (if m.uScalar.isSome then [pr.u] else [])
        = m.uScalar.getD 0 • pr.u := by cases m.uScalar <;> simp [dot]
    have f3 : dot (m.gScalars.getD []) (if m.gScalars.isSome then pr.g else [])
        = dot (m.gScalars.getD []) pr.g := by cases m.gScalars <;> simp [dot]
    rw [f1, f2, f3]
    rfl
  rintro x rfl
  rfl

/-- **C22**: whatever the sequence of operations, no assertion fails, and `eval` is true exactly
when the formal linear combination is the identity. -/
theorem msm_linear [DecidableEq A] {cv : Coords K A} (hv : cv.Valid) {pr : Params A}
    (hpr : pr.Ok) (p : Prog F A) (hp : p.Ok pr) :
    ∃ m, p.run cv pr = some m ∧ m.eval cv pr = some (decide (p.formal pr = 0)) := by
  obtain ⟨m, h1, h2⟩ := run_spec hv hpr p hp
  exact ⟨m, h1, eval_spec hv hpr h2⟩

/-- C22: appending the identity has no effect on the accumulator. -/
theorem append_identity {cv : Coords K A} (hv : cv.Valid) (m : MSM F K) (s : F) :
    m.appendTerm cv s (0 : A) = some m := by
  unfold MSM.appendTerm
  rw [(hv.none_iff 0).2 rfl]

/-- The documented panic of `add_to_g_scalars`: exactly on a wrong number of scalars. -/
theorem addToGScalars_panics (pr : Params A) (m : MSM F K) (l : List F) :
    m.addToGScalars pr l = none ↔ l.length ≠ pr.n := by
  unfold MSM.addToGScalars
  split_ifs with h
  · cases m.gScalars <;> simp [h]
  · simp [h]

/-! ## Short Weierstrass curves meet the assumption on coordinates -/

open WeierstrassCurve in
/-- Coordinates on the points of an affine Weierstrass curve. -/
noncomputable def weierstrass [DecidableEq K] (W : Affine K) : Coords K W.Point where
  coords
    | .zero => none
    | @Affine.Point.some _ _ _ x y _ => some (x, y)
  fromXY x y := by
    classical
    exact if h : W.Nonsingular x y then some (.some x y h) else none

open WeierstrassCurve in
theorem weierstrass_valid [DecidableEq K] (W : Affine K) (h1 : W.a₁ = 0) (h3 : W.a₃ = 0) :
    (weierstrass W).Valid where
  none_iff p := by
    cases p with
    | zero => exact ⟨fun _ => rfl, fun _ => rfl⟩
    | some x y h => exact ⟨fun h => (by cases h), fun h => (by cases h)⟩
  fromXY_eq p x y hp := by
    cases p with
    | zero => cases hp
    | some x' y' h =>
      cases hp
      simp [weierstrass, h]
  neg p x y hp := by
    cases p with
    | zero => cases hp
    | some x' y' h =>
      cases hp
      rw [Affine.Point.neg_some]
      simp [weierstrass, Affine.negY, h1, h3]
  same_x p q x y y' hp hq := by
    cases p with
    | zero => cases hp
    | some x₁ y₁ h =>
      cases q with
      | zero => cases hq
      | some x₂ y₂ h' =>
        cases hp; cases hq
        have := Affine.Y_eq_of_X_eq h.1 h'.1 rfl
        simpa [Affine.negY, h1, h3] using this

/-! ## A concrete curve: `y² = x³ + 5` over the field of 7 elements, of prime order 7 -/

instance : Fact (Nat.Prime 7) := ⟨by norm_num⟩

instance : LinearOrder (ZMod 7) := inferInstanceAs (LinearOrder (Fin 7))

/-- `y² = x³ + 5`, the equation of both Pasta curves. -/
def curve7 : WeierstrassCurve.Affine (ZMod 7) := ⟨0, 0, 0, 0, 5⟩

theorem curve7_nonsingular (x y : ZMod 7) : curve7.Nonsingular x y ↔ y ^ 2 = x ^ 3 + 5 := by
  rw [WeierstrassCurve.Affine.nonsingular_iff, WeierstrassCurve.Affine.equation_iff]
  revert x y
  decide +kernel

/-- Points as coordinates or the identity. -/
def curve7Equiv : curve7.Point ≃ Option {p : ZMod 7 × ZMod 7 // p.2 ^ 2 = p.1 ^ 3 + 5} where
  toFun
    | .zero => none
    | @WeierstrassCurve.Affine.Point.some _ _ _ x y h => some ⟨(x, y), (curve7_nonsingular x y).1 h⟩
  invFun
    | none => .zero
    | some p => .some p.1.1 p.1.2 ((curve7_nonsingular _ _).2 p.2)
  left_inv p := by cases p <;> rfl
  right_inv p := by cases p <;> rfl

theorem curve7_order (p : curve7.Point) : 7 • p = 0 := by
  letI : Fintype curve7.Point := Fintype.ofEquiv _ curve7Equiv.symm
  have : Fintype.card curve7.Point = 7 := by
    rw [Fintype.card_congr curve7Equiv]; decide +kernel
  have h := card_nsmul_eq_zero (x := p)
  simpa only [this] using h

instance : Module (ZMod 7) curve7.Point := AddCommGroup.zmodModule curve7_order

/-- The points `(3, 2)` and its opposite `(3, 5)`. -/
def pt7 : curve7.Point := .some 3 2 ((curve7_nonsingular 3 2).2 (by decide))

/-- `3·P + 4·(-P)`, scaled by 2, plus `2·P`, vanishes: opposite points are merged with signs. -/
example (pr : Params curve7.Point) (hpr : pr.Ok) :
    ∃ m, (Prog.addMsm (.scale (.append (.append .new (3 : ZMod 7) pt7) 4 (-pt7)) 2)
        (.append .new 2 pt7)).run (weierstrass curve7) pr = some m ∧
      open Classical in m.eval (weierstrass curve7) pr = some true := by
  classical
  obtain ⟨m, h1, h2⟩ := msm_linear (weierstrass_valid curve7 rfl rfl) hpr
    (Prog.addMsm (.scale (.append (.append .new (3 : ZMod 7) pt7) 4 (-pt7)) 2)
        (.append .new 2 pt7)) (by simp [Prog.Ok])
  refine ⟨m, h1, ?_⟩
  rw [h2]
  have : (Prog.addMsm (.scale (.append (.append .new (3 : ZMod 7) pt7) 4 (-pt7)) 2)
        (.append .new 2 pt7)).formal pr = 0 := by
    simp only [Prog.formal]
    module
  simp [this]

end Verif.Msm
