import Verif.Pow5.Rounds
import Verif.Pow5.SpongeModel
import Mathlib.Algebra.Field.Rat
import Mathlib.LinearAlgebra.Matrix.Notation
import Mathlib.Tactic.NormNum
import Mathlib.Tactic.FinCases

/-!
# The Poseidon sponge gadget (C43)

The gadget is a simulation of the sponge on field elements, both under the witnesses it computes
and under any assignment that satisfies the constraints.
-/

namespace Verif.Pow5

open Verif.Region Verif.Poseidon

variable {C S F A B V W : Type} [Field F] {r : ℕ}

/-- The value of cells in an assignment. -/
def ev (G : Grid C F) (a : ACell C F) : F := G.at a.cell

/-- The layout program `prog` implements the computation `p`, which takes its inputs from some
cells, under the witnesses and under all satisfying assignments.  `agr` says that an assignment
has the witnesses in the input cells; `absB` reads the result. -/
def Sim (gates : Gates C S F) (agr : Grid C F → Prop) (prog : M C S F B) (inv : B → Prop)
    (absB : (ACell C F → F) → B → W) (p : (ACell C F → F) → Option W) : Prop :=
  ∀ n, (p ACell.value = none → prog n = none) ∧
    ∀ w, p ACell.value = some w → ∃ b n' ops, prog n = some (b, n', ops) ∧
      absB ACell.value b = w ∧ inv b ∧ Layout n n' ops ∧
      ∀ G : Grid C F, (Sat gates G ops → p (ev G) = some (absB (ev G) b)) ∧
        (Honest G ops → agr G → Sat gates G ops ∧ absB (ev G) b = absB ACell.value b)

omit [Field F] in
theorem Layout.append {n n' n'' : ℕ} {ops ops' : List (Op C S F)} (h : Layout n n' ops)
    (h' : Layout n' n'' ops') : Layout n n'' (ops ++ ops') where
  le := h.le.trans h'.le
  within := (h.within.append h'.within).mono fun c hc => by
    have := h.le; have := h'.le
    omega
  consistent := h.consistent.append h'.consistent h.within h'.within fun c h1 h2 => by omega

omit [Field F] in
theorem Layout.nil (n : ℕ) : Layout n n ([] : List (Op C S F)) := ⟨le_rfl, Within.nil, Consistent.nil⟩

theorem Sim.pure {gates : Gates C S F} {agr : Grid C F → Prop} (b : B) {inv : B → Prop}
    (hinv : inv b) {absB : (ACell C F → F) → B → W}
    (h : ∀ G, agr G → absB (ev G) b = absB ACell.value b) :
    Sim gates agr (Pure.pure b) inv absB fun e => some (absB e b) := by
  refine fun n => ⟨fun h => absurd h (by simp), fun w hw => ⟨b, n, [], rfl, by simpa using hw, hinv,
    Layout.nil n, fun G => ⟨fun _ => rfl, fun _ ha => ⟨Sat.nil _ _, h G ha⟩⟩⟩⟩

/-- Sequential composition. -/
theorem Sim.bind {gates : Gates C S F} {agr : Grid C F → Prop} {x : M C S F A} {invA : A → Prop}
    {absA : (ACell C F → F) → A → V} {p : (ACell C F → F) → Option V} {f : A → M C S F B}
    {inv : B → Prop} {absB : (ACell C F → F) → B → W} {q : (ACell C F → F) → V → Option W}
    (hx : Sim gates agr x invA absA p)
    (hf : ∀ a, invA a → Sim gates (fun G => agr G ∧ absA (ev G) a = absA ACell.value a) (f a) inv
      absB fun e => q e (absA e a)) :
    Sim gates agr (x >>= f) inv absB fun e => (p e).bind (q e) := by
  intro n
  obtain ⟨h0, h1⟩ := hx n
  rcases hp : p ACell.value with _ | v
  · refine ⟨fun _ => ?_, fun w hw => ?_⟩
    · rw [bind_apply, h0 hp]
    · dsimp only at hw
      rw [hp] at hw
      exact absurd hw (by simp)
  · obtain ⟨a, n', ops, e1, e2, e3, e4, e5⟩ := h1 v hp
    obtain ⟨g0, g1⟩ := hf a e3 n'
    dsimp only at g0 g1
    rw [e2] at g0
    rw [e2] at g1
    dsimp only
    rw [hp, Option.bind_some]
    refine ⟨fun h => ?_, fun w hw => ?_⟩
    · rw [bind_apply, e1]
      dsimp only
      rw [g0 h]
    · obtain ⟨b, n'', ops', d1, d2, d3, d4, d5⟩ := g1 w hw
      refine ⟨b, n'', ops ++ ops', bind_of e1 d1, d2, d3, e4.append d4, fun G => ⟨?_, ?_⟩⟩
      · intro hs
        rw [(e5 G).1 hs.left, Option.bind_some]
        exact (d5 G).1 hs.right
      · intro hG ha
        obtain ⟨s1, a1⟩ := (e5 G).2 hG.left ha
        obtain ⟨s2, a2⟩ := (d5 G).2 hG.right ⟨ha, a1.trans e2⟩
        exact ⟨s1.append s2, a2⟩

theorem Sim.mono {gates : Gates C S F} {agr agr' : Grid C F → Prop} {x : M C S F B}
    {inv : B → Prop} {absB : (ACell C F → F) → B → W} {p : (ACell C F → F) → Option W}
    (h : Sim gates agr x inv absB p) (ha : ∀ G, agr' G → agr G) :
    Sim gates agr' x inv absB p := by
  intro n
  obtain ⟨h0, h1⟩ := h n
  refine ⟨h0, fun w hw => ?_⟩
  obtain ⟨b, n', ops, e1, e2, e3, e4, e5⟩ := h1 w hw
  exact ⟨b, n', ops, e1, e2, e3, e4, fun G => ⟨(e5 G).1, fun hG hh => (e5 G).2 hG (ha G hh)⟩⟩

/-- An `unwrap` of a value that does not depend on witnesses. -/
theorem Sim.unwrap {gates : Gates C S F} {agr : Grid C F → Prop} (x : Option B) {inv : B → Prop}
    (hinv : ∀ b, x = some b → inv b) {absB : (ACell C F → F) → B → W}
    (h : ∀ G b, agr G → x = some b → absB (ev G) b = absB ACell.value b) :
    Sim gates agr (Region.unwrap x) inv absB fun e => x.map (absB e) := by
  intro n
  rcases x with _ | b
  · exact ⟨fun _ => rfl, fun w hw => absurd hw (by simp)⟩
  · refine ⟨fun h => absurd h (by simp), fun w hw => ⟨b, n, [], rfl, by simpa using hw,
      hinv b rfl, Layout.nil n, fun G => ⟨fun _ => rfl, fun _ ha => ⟨Sat.nil _ _, h G b ha rfl⟩⟩⟩⟩

/-! ## The parts of the sponge -/

/-- The values of a state. -/
def absState (e : ACell C F → F) (st : Words C F r) : State F (r + 1) := fun i => e (st i)

/-- The value of a padded word. -/
def PaddedWord.eval (e : ACell C F → F) : PaddedWord C F → F
  | .message a => e a
  | .padding v => v

/-- The values of a buffer. -/
def absMode (e : ACell C F → F) (m : List (Option (PaddedWord C F))) : List (Option F) :=
  m.map (Option.map (PaddedWord.eval e))

/-- The specification's hypotheses for the chip. -/
structure Good (cfg : Config C S r) (P : Spec F (r + 1)) : Prop where
  cfg : cfg.Ok
  even : configureOk P
  sbox : P.sbox = (· ^ 5)
  inv : Matrix.of P.mds * Matrix.of P.mdsInv = 1
  rounds : P.fullRounds + P.partialRounds ≤ P.roundConstants.length

theorem permute_sim {cfg : Config C S r} {P : Spec F (r + 1)} (h : Good cfg P) (st : Words C F r) :
    Sim (gates cfg P) (fun G => absState (ev G) st = absState ACell.value st) (permute cfg P st)
      (fun _ => True) absState fun e => some (Poseidon.permute P (absState e st)) := by
  intro n
  refine ⟨fun h => absurd h (by simp), fun w hw => ?_⟩
  obtain ⟨out, ops, h1, h2, h3, h4⟩ := permute_ok h.cfg P h.even h.sbox h.inv h.rounds st n
  refine ⟨out, n + 1, ops, h1, h3.trans (Option.some.inj hw), trivial, h2, fun G => ⟨fun hs => ?_,
    fun hG ha => ?_⟩⟩
  · exact congrArg some ((h4 G).1 hs).symm
  · obtain ⟨s1, a1⟩ := (h4 G).2 hG fun i => congrFun ha i
    exact ⟨s1, funext a1⟩

theorem initialState_sim {cfg : Config C S r} (hcfg : cfg.Ok) (P : Spec F (r + 1)) (cap : F)
    (agr : Grid C F → Prop) :
    Sim (gates cfg P) agr (initialState cfg cap) (fun _ => True) absState
      fun _ => some (specInit r cap) := by
  intro n
  refine ⟨fun h => absurd h (by simp), fun w hw => ?_⟩
  obtain rfl : specInit r cap = w := by simpa using hw
  set v : Fin (r + 1) → F := fun i => if i.1 < r then 0 else cap with hv
  have hv' : v = specInit r cap := by
    funext i
    simp only [hv, specInit]
    have := i.2
    by_cases hi : i.1 = r
    · simp [hi]
    · rw [if_pos (by omega), if_neg hi]
  set ops : List (Op C S F) := (List.finRange (r + 1)).flatMap fun i =>
    [.advice ⟨n, cfg.state i, 0⟩ (v i), .const ⟨n, cfg.state i, 0⟩ (v i)] with hops
  have hm : ∀ op, op ∈ ops ↔ ∃ i, op = .advice ⟨n, cfg.state i, 0⟩ (v i) ∨
      op = .const ⟨n, cfg.state i, 0⟩ (v i) := by
    intro op; simp [hops]
  have has : ∀ c w, Assigned ops c w ↔ ∃ i, c = ⟨n, cfg.state i, 0⟩ ∧ w = v i := by
    intro c w; simp [Assigned, hm]
  refine ⟨cellsAt n cfg.state 0 v, n + 1, ops, tabulate_run (n + 1) fun i => rfl, hv', trivial,
    ⟨by omega, ?_, ?_⟩, fun G => ⟨fun hs => ?_, fun hG _ => ⟨?_, ?_⟩⟩⟩
  · intro c w hc
    obtain ⟨i, rfl, -⟩ := (has _ _).1 hc
    exact ⟨le_rfl, Nat.lt_succ_self n⟩
  · intro c x y hx hy
    obtain ⟨i, rfl, rfl⟩ := (has _ _).1 hx
    obtain ⟨j, hj, rfl⟩ := (has _ _).1 hy
    rw [hcfg.state (Cell.mk.inj hj).2.1]
  · refine congrArg some ((Eq.symm hv').trans ?_) 
    funext i
    exact (hs.const _ _ ((hm _).2 ⟨i, Or.inr rfl⟩)).symm
  · rw [sat_iff]
    simp only [hm, reduceCtorEq, or_self, exists_false, false_imp_iff, implies_true,
      true_and, and_true, false_or]
    rintro c w ⟨i, hi⟩
    cases hi
    exact hG.1 _ _ ((hm _).2 ⟨i, Or.inl rfl⟩)
  · funext i
    exact hG.1 _ _ ((hm _).2 ⟨i, Or.inl rfl⟩)

omit [Field F] in
/-- A loop with an entry that fails. -/
theorem tabulate_none {n : ℕ} {f : Fin n → M C S F A} (i : Fin n) (h : ∀ m, f i m = none) (m : ℕ) :
    tabulate n f m = none := by
  induction n generalizing m with
  | zero => exact i.elim0
  | succ n ih =>
    rw [tabulate, bind_apply]
    refine Fin.cases (motive := fun i => (∀ m, f i m = none) → _) ?_ (fun j => ?_) i h
    · intro h0; rw [h0]
    · intro hj
      rcases f 0 m with _ | ⟨a, m', o⟩
      · rfl
      · dsimp only
        rw [bind_apply, ih j hj]

/-- The operations of `load_input_word`. -/
def inputOps (cfg : Config C S r) (reg : ℕ) (i : Fin r) : PaddedWord C F → List (Op C S F)
  | .message a => [.advice ⟨reg, cfg.state i.castSucc, 1⟩ a.value,
      .equal a.cell ⟨reg, cfg.state i.castSucc, 1⟩]
  | .padding v => [.fixed ⟨reg, cfg.rcB i.castSucc, 1⟩ v, .advice ⟨reg, cfg.state i.castSucc, 1⟩ v,
      .equal ⟨reg, cfg.rcB i.castSucc, 1⟩ ⟨reg, cfg.state i.castSucc, 1⟩]

omit [Field F] in
theorem loadInput_run (cfg : Config C S r) (reg : ℕ) (i : Fin r) (w : PaddedWord C F) (n : ℕ) :
    loadInput cfg reg i (some w) n
      = some (⟨⟨reg, cfg.state i.castSucc, 1⟩, w.eval ACell.value⟩, n, inputOps cfg reg i w) := by
  cases w <;> rfl

theorem padGate_iff (cfg : Config C S r) (q : C → ℤ → F) :
    (∀ p ∈ padGate cfg q, p = 0) ↔
      (∀ i : Fin r, q (cfg.state i.castSucc) 1
        = q (cfg.state i.castSucc) (-1) + q (cfg.state i.castSucc) 0) ∧
      q (cfg.state (Fin.last r)) 1 = q (cfg.state (Fin.last r)) (-1) := by
  simp only [padGate, List.mem_append, List.mem_map, List.mem_finRange, true_and,
    List.mem_singleton]
  constructor
  · intro h
    exact ⟨fun i => (sub_eq_zero.1 (h _ (Or.inl ⟨i, rfl⟩))).symm,
      (sub_eq_zero.1 (h _ (Or.inr rfl))).symm⟩
  · rintro ⟨h1, h2⟩ p (⟨i, rfl⟩ | rfl)
    · exact sub_eq_zero.2 (h1 i).symm
    · exact sub_eq_zero.2 h2.symm

omit [Field F] in
theorem assigned_inputOps {cfg : Config C S r} {reg : ℕ} {i : Fin r} {w : PaddedWord C F}
    {c : Cell C} {v : F} (h : Assigned (inputOps cfg reg i w) c v) :
    (c = ⟨reg, cfg.state i.castSucc, 1⟩ ∨ c = ⟨reg, cfg.rcB i.castSucc, 1⟩) ∧
      v = w.eval ACell.value := by
  cases w <;> simp [Assigned, inputOps] at h
  · exact ⟨Or.inl h.1, h.2⟩
  · exact ⟨h.imp And.left And.left, h.elim And.right And.right⟩

theorem sat_inputOps (cfg : Config C S r) (P : Spec F (r + 1)) (G : Grid C F) (reg : ℕ) (i : Fin r)
    (w : PaddedWord C F) (h : Sat (gates cfg P) G (inputOps cfg reg i w)) :
    G reg (cfg.state i.castSucc) 1 = w.eval (ev G) := by
  cases w with
  | message a => exact (h.equal a.cell ⟨reg, cfg.state i.castSucc, 1⟩ (by simp [inputOps])).symm
  | padding v =>
    have h1 := h.equal ⟨reg, cfg.rcB i.castSucc, 1⟩ ⟨reg, cfg.state i.castSucc, 1⟩
      (by simp [inputOps])
    have h2 := h.fixed ⟨reg, cfg.rcB i.castSucc, 1⟩ v (by simp [inputOps])
    exact h1.symm.trans h2

theorem honest_inputOps (cfg : Config C S r) (P : Spec F (r + 1)) (G : Grid C F) (reg : ℕ)
    (i : Fin r) (w : PaddedWord C F) (h : Honest G (inputOps cfg reg i w))
    (ha : w.eval (ev G) = w.eval ACell.value) :
    Sat (gates cfg P) G (inputOps cfg reg i w) ∧
      G reg (cfg.state i.castSucc) 1 = w.eval ACell.value := by
  cases w with
  | message a =>
    have h1 : G reg (cfg.state i.castSucc) 1 = a.value :=
      h.1 ⟨reg, cfg.state i.castSucc, 1⟩ a.value (by simp [inputOps])
    refine ⟨?_, h1⟩
    rw [sat_iff]
    simp only [inputOps, List.mem_cons, reduceCtorEq, List.not_mem_nil, or_self, false_imp_iff,
      implies_true, true_and, and_true, false_or, or_false]
    intro x y hxy
    cases hxy
    exact Eq.trans ha h1.symm
  | padding v =>
    have h1 : G reg (cfg.state i.castSucc) 1 = v :=
      h.1 ⟨reg, cfg.state i.castSucc, 1⟩ v (by simp [inputOps])
    have h2 : G reg (cfg.rcB i.castSucc) 1 = v :=
      h.2 ⟨reg, cfg.rcB i.castSucc, 1⟩ v (by simp [inputOps])
    refine ⟨?_, h1⟩
    rw [sat_iff]
    simp only [inputOps, List.mem_cons, reduceCtorEq, List.not_mem_nil, or_self, false_imp_iff,
      implies_true, true_and, and_true, false_or, or_false]
    refine ⟨?_, ?_⟩
    · intro x y hxy
      cases hxy
      exact h2.trans h1.symm
    · intro c v' hc
      cases hc
      exact h2

omit [Field F] in
/-- A buffer without missing entries. -/
theorem mode_full {mode : List (Option A)} (hl : mode.length = r) (h : none ∉ mode) :
    ∃ w : Fin r → A, mode = List.ofFn fun i => some (w i) := by
  have : ∀ i : Fin r, ∃ w, mode[i.1]'(by rw [hl]; exact i.2) = some w := by
    intro i
    rcases hi : mode[i.1]'(by rw [hl]; exact i.2) with _ | w
    · exact absurd (hi ▸ List.getElem_mem _) h
    · exact ⟨w, rfl⟩
  choose w hw using this
  refine ⟨w, List.ext_getElem (by simp [hl]) fun i h1 h2 => ?_⟩
  rw [List.getElem_ofFn]
  exact hw ⟨i, by rw [hl] at h1; exact h1⟩

theorem addInput_sim {cfg : Config C S r} (hcfg : cfg.Ok) (P : Spec F (r + 1)) (st : Words C F r)
    (mode : List (Option (PaddedWord C F))) (hl : mode.length = r) :
    Sim (gates cfg P) (fun G => absState (ev G) st = absState ACell.value st ∧
        absMode (ev G) mode = absMode ACell.value mode)
      (addInput cfg st mode) (fun _ => True) absState
      fun e => Poseidon.addInput (absState e st) (absMode e mode) := by
  intro n
  by_cases hn : none ∈ mode
  · have e0 : ∀ e : ACell C F → F, Poseidon.addInput (absState e st) (absMode e mode) = none := by
      intro e
      rw [Poseidon.addInput, List.take_of_length_le (by simp [absMode, hl]), mapM_id_none,
        Option.map_none]
      exact List.mem_map.2 ⟨none, hn, rfl⟩
    refine ⟨fun _ => ?_, fun w hw => absurd (hw.symm.trans (e0 _)) (by simp)⟩
    obtain ⟨i, hi, hni⟩ := List.getElem_of_mem hn
    have h1 : ∀ m, (tabulate r fun i => loadInput cfg n i (mode.getD i none) : M C S F _) m
        = none := tabulate_none ⟨i, hl ▸ hi⟩ fun m => by
      show loadInput cfg n _ (mode.getD i none) m = none
      rw [List.getD_eq_getElem _ _ hi, hni]
      rfl
    have he : (enable cfg.sPadAndAdd n 1 : M C S F _) (n + 1)
      = some ((), n + 1, [.enable cfg.sPadAndAdd n 1]) := rfl
    show (enable cfg.sPadAndAdd n 1 >>= fun _ => _ : M C S F _) (n + 1) = none
    rw [bind_apply, he]
    dsimp only
    rw [bind_apply, load_run]
    dsimp only
    rw [bind_apply, h1]
  · obtain ⟨w, rfl⟩ := mode_full hl hn
    have e0 : ∀ e : ACell C F → F,
        Poseidon.addInput (absState e st) (absMode e (List.ofFn fun i => some (w i)))
          = some fun i => absState e st i + if h : i.1 < r then (w ⟨i.1, h⟩).eval e else 0 := by
      intro e
      have : absMode e (List.ofFn fun i => some (w i))
          = (List.ofFn fun i => (w i).eval e).map some := by
        simp only [absMode, List.map_ofFn]
        rfl
      rw [this, addInput_full (rate := r) (by omega) _ _ (by simp)]
      congr 1
      funext i
      simp only [addBlock]
      split_ifs with hi
      · rw [List.getD_eq_getElem _ _ (by simpa using hi), List.getElem_ofFn]
      · rw [add_zero]
    refine ⟨fun h => absurd (h.symm.trans (e0 _)) (by simp), fun v hv => ?_⟩
    obtain rfl := Option.some.inj ((e0 _).symm.trans hv)
    set vin : Fin (r + 1) → F := fun i =>
      absState ACell.value st i + if h : i.1 < r then (w ⟨i.1, h⟩).eval ACell.value else 0 with hvin
    have hrun : addInput cfg st (List.ofFn fun i => some (w i)) n
        = some (cellsAt n cfg.state 2 vin, n + 1, [.enable cfg.sPadAndAdd n 1] ++
          (copyOps n cfg.state st ++ ((List.finRange r).flatMap (fun i => inputOps cfg n i (w i)) ++
            adviceOps n cfg.state 2 vin))) := by
      have he : (enable cfg.sPadAndAdd n 1 : M C S F _) (n + 1)
        = some ((), n + 1, [.enable cfg.sPadAndAdd n 1]) := rfl
      refine bind_of he (bind_of (load_run cfg n st (n + 1)) (bind_of (tabulate_run (n + 1)
        (g := fun i => ⟨⟨n, cfg.state i.castSucc, 1⟩, (w i).eval ACell.value⟩)
        (ops := fun i => inputOps cfg n i (w i)) fun i => ?_) ?_))
      · rw [List.getD_eq_getElem _ _ (by simp), List.getElem_ofFn]
        exact loadInput_run cfg n i (w i) (n + 1)
      · exact tab_advice n cfg.state 2 vin (n + 1)
    have asI : ∀ c v, Assigned ((List.finRange r).flatMap fun i => inputOps cfg n i (w i)) c v →
        ∃ i : Fin r, (c = ⟨n, cfg.state i.castSucc, 1⟩ ∨ c = ⟨n, cfg.rcB i.castSucc, 1⟩) ∧
          v = (w i).eval ACell.value := by
      intro c v hc
      simp only [Assigned, List.mem_flatMap, List.mem_finRange, true_and, ← exists_or] at hc
      obtain ⟨i, hi⟩ := hc
      exact ⟨i, assigned_inputOps hi⟩
    refine ⟨_, _, _, hrun, rfl, trivial, ⟨by omega, ?_, ?_⟩, fun G => ⟨fun hs => ?_,
      fun hG ⟨ha1, ha2⟩ => ?_⟩⟩
    · intro c v hv
      rcases Assigned.append.1 hv with hv | hv
      · simp [Assigned] at hv
      rcases Assigned.append.1 hv with hv | hv
      · obtain ⟨i, rfl, -⟩ := assigned_copyOps.1 hv
        exact ⟨le_rfl, Nat.lt_succ_self n⟩
      rcases Assigned.append.1 hv with hv | hv
      · obtain ⟨i, rfl | rfl, -⟩ := asI c v hv <;> exact ⟨le_rfl, Nat.lt_succ_self n⟩
      · obtain ⟨i, rfl, -⟩ := assigned_adviceOps.1 hv
        exact ⟨le_rfl, Nat.lt_succ_self n⟩
    · have cI : Consistent ((List.finRange r).flatMap fun i => inputOps cfg n i (w i)) := by
        intro c x y hx hy
        obtain ⟨i, hi, rfl⟩ := asI c x hx
        obtain ⟨j, hj, rfl⟩ := asI c y hy
        have hij : i.castSucc = j.castSucc := by
          rcases hi with hi | hi <;> rcases hj with hj | hj <;>
            have hc := (Cell.mk.inj (hi.symm.trans hj)).2.1
          · exact hcfg.state hc
          · exact absurd hc (hcfg.stateB _ _)
          · exact absurd hc.symm (hcfg.stateB _ _)
          · exact hcfg.rcB hc
        rw [Fin.castSucc_injective r hij]
      have wI : Within ((List.finRange r).flatMap fun i => inputOps cfg n i (w i))
          fun c => c.row = 1 := by
        intro c v hv
        obtain ⟨i, rfl | rfl, -⟩ := asI c v hv <;> rfl
      have wO : Within (adviceOps n cfg.state 2 vin : List (Op C S F)) fun c => c.row = 2 := by
        intro c v hv
        obtain ⟨i, rfl, -⟩ := assigned_adviceOps.1 hv; rfl
      have wC : Within (copyOps n cfg.state st : List (Op C S F)) fun c => c.row = 0 := by
        intro c v hv
        obtain ⟨i, rfl, -⟩ := assigned_copyOps.1 hv; rfl
      refine Consistent.append (by simp [Consistent, Assigned])
        ((consistent_copyOps n hcfg.state st).append
          (cI.append (consistent_adviceOps n hcfg.state _ _) wI wO ?_) wC (wI.append wO) ?_)
        (A := fun _ => False) (B := fun _ => True) ?_ (fun _ _ _ => trivial) ?_
      · intro c h1 h2; omega
      · intro c h1 h2; omega
      · intro c v hv; simp [Assigned] at hv
      · exact fun _ h _ => h
    · have g := (padGate_iff cfg _).1 ((sat_enablePad hcfg P G n 1).1 hs.left)
      have h0 := (sat_copyOps cfg P G).1 hs.right.left
      have h1 : ∀ i, G n (cfg.state i.castSucc) 1 = (w i).eval (ev G) := fun i =>
        sat_inputOps cfg P G n i (w i) (hs.right.right.left.mono (fun _ h => h) fun op hop =>
          List.mem_flatMap.2 ⟨i, List.mem_finRange i, hop⟩)
      refine (e0 _).trans (congrArg some ?_)
      obtain ⟨g1, g2⟩ := g
      simp only [Grid.query, add_zero, Int.reduceNeg, show (1 : ℤ) + -1 = 0 from rfl] at g1 g2
      funext i
      refine Fin.lastCases ?_ (fun j => ?_) i
      · rw [dif_neg (by simp), add_zero]
        exact ((g2.trans (h0 _))).symm
      · rw [dif_pos (by simp)]
        refine Eq.trans ?_ (g1 j).symm
        rw [h0, h1]
        rfl
    · have h0 : ∀ i, G n (cfg.state i) 0 = (st i).value := fun i =>
        hG.right.left.1 _ _ (mem_copyOps.2 ⟨i, Or.inl rfl⟩)
      have hw : ∀ i, (w i).eval (ev G) = (w i).eval ACell.value := by
        intro i
        have := congrArg (fun l : List (Option F) => l[i.1]?) ha2
        simpa [absMode] using this
      have h1 := fun i => honest_inputOps cfg P G n i (w i)
        ⟨fun c v hc => hG.right.right.left.1 c v
            (List.mem_flatMap.2 ⟨i, List.mem_finRange i, hc⟩),
          fun c v hc => hG.right.right.left.2 c v
            (List.mem_flatMap.2 ⟨i, List.mem_finRange i, hc⟩)⟩ (hw i)
      have h2 := honest_adviceOps hG.right.right.right
      refine ⟨Sat.append ((sat_enablePad hcfg P G n 1).2 ((padGate_iff cfg _).2 ?_))
        (((sat_copyOps cfg P G).2 fun i => (h0 i).trans (congrFun ha1 i).symm).append
          (Sat.append ?_ (sat_adviceOps cfg P G))), funext h2⟩
      · simp only [Grid.query, add_zero, Int.reduceNeg, show (1 : ℤ) + -1 = 0 from rfl, h0]
        refine ⟨fun i => ?_, ?_⟩
        · refine (h2 i.castSucc).trans ?_
          rw [(h1 i).2, hvin]
          simp [absState]
        · refine (h2 (Fin.last r)).trans ?_
          rw [hvin]
          simp [absState]
      · constructor
        · intro g hg reg row hm
          obtain ⟨i, -, hi⟩ := List.mem_flatMap.1 hm
          exact (h1 i).1.gates g hg reg row hi
        · intro a b hm
          obtain ⟨i, -, hi⟩ := List.mem_flatMap.1 hm
          exact (h1 i).1.equal a b hi
        · intro a b hm
          obtain ⟨i, -, hi⟩ := List.mem_flatMap.1 hm
          exact (h1 i).1.const a b hi
        · intro a b hm
          obtain ⟨i, -, hi⟩ := List.mem_flatMap.1 hm
          exact (h1 i).1.fixed a b hi

/-! ## The sponge -/

omit [Field F] in
theorem absorbBuf_map (g : A → B) (l : List (Option A)) (v : A) :
    absorbBuf (l.map (Option.map g)) (g v) = (absorbBuf l v).map (List.map (Option.map g)) := by
  induction l with
  | nil => rfl
  | cons a l ih =>
    rcases a with _ | a
    · rfl
    · simp only [List.map_cons, Option.map_some, absorbBuf, ih, Option.map_map]
      rfl

omit [Field F] in
theorem absorbBuf_length {l m : List (Option A)} {v : A} (h : absorbBuf l v = some m) :
    m.length = l.length := by
  induction l generalizing m with
  | nil => simp [absorbBuf] at h
  | cons a l ih =>
    rcases a with _ | a
    · simp only [absorbBuf, Option.some.injEq] at h
      rw [← h]; rfl
    · simp only [absorbBuf, Option.map_eq_some_iff] at h
      obtain ⟨m', h1, rfl⟩ := h
      simp [ih h1]

omit [Field F] in
theorem squeezeBuf_map (g : A → B) (l : List (Option A)) :
    squeezeBuf (l.map (Option.map g))
      = (squeezeBuf l).map fun x => (g x.1, x.2.map (Option.map g)) := by
  induction l with
  | nil => rfl
  | cons a l ih =>
    rcases a with _ | a
    · simp only [List.map_cons, Option.map_none, squeezeBuf, ih, Option.map_map]
      rfl
    · rfl

/-- The values of an output buffer. -/
def absOut (e : ACell C F → F) (l : List (Option (ACell C F))) : List (Option F) :=
  l.map (Option.map e)

omit [Field F] in
theorem getOutput_eq (e : ACell C F → F) (st : Words C F r) :
    absOut e (getOutput st) = output r (absState e st) := by
  simp only [absOut, getOutput, List.map_ofFn, output]
  congr 1
  funext i
  rw [dif_pos (by omega)]
  rfl

/-- The result of `poseidon_sponge`. -/
def absPair (e : ACell C F → F) (x : Words C F r × List (Option (ACell C F))) :
    State F (r + 1) × List (Option F) := (absState e x.1, absOut e x.2)

theorem sponge_sim {cfg : Config C S r} {P : Spec F (r + 1)} (h : Good cfg P) (st : Words C F r)
    (input : Option (List (Option (PaddedWord C F)))) (hl : ∀ m, input = some m → m.length = r) :
    Sim (gates cfg P) (fun G => absState (ev G) st = absState ACell.value st ∧
        input.map (absMode (ev G)) = input.map (absMode ACell.value))
      (poseidonSponge cfg P st input) (fun _ => True) absPair
      fun e => Poseidon.poseidonSponge P r (absState e st) (input.map (absMode e)) := by
  have tail : ∀ st : Words C F r,
      Sim (gates cfg P) (fun G => absState (ev G) st = absState ACell.value st)
        (permute cfg P st >>= fun state => Pure.pure (state, getOutput state)) (fun _ => True) absPair
        fun e => (some (Poseidon.permute P (absState e st))).bind
          fun s => some (s, output r s) := by
    intro st
    refine (permute_sim h st).bind fun a _ => ?_
    have := Sim.pure (gates := gates cfg P)
      (agr := fun G => absState (ev G) st = absState ACell.value st ∧
        absState (ev G) a = absState ACell.value a) (a, getOutput a) (inv := fun _ => True) trivial
      (absB := absPair) (by
        rintro G ⟨-, h2⟩
        simp only [absPair, getOutput_eq, h2])
    simpa only [absPair, getOutput_eq] using this
  rcases input with _ | m
  · have := (tail st).mono (agr' := fun G => absState (ev G) st = absState ACell.value st ∧
        (none : Option (List (Option (PaddedWord C F)))).map (absMode (ev G))
          = (none : Option (List (Option (PaddedWord C F)))).map (absMode ACell.value))
        fun G hG => hG.1
    rw [show poseidonSponge cfg P st none = permute cfg P st >>= fun state =>
      Pure.pure (state, getOutput state) by simp only [poseidonSponge, pure_bind]]
    exact this
  · have h1 := (addInput_sim h.cfg P st m (hl m rfl)).bind
      (f := fun state => permute cfg P state >>= fun state => Pure.pure (state, getOutput state))
      (q := fun _ s => (some (Poseidon.permute P s)).bind fun s => some (s, output r s))
      (inv := fun _ => True) (absB := absPair)
      fun a _ => (tail a).mono fun G hG => hG.2
    refine h1.mono ?_
    rintro G ⟨h2, h3⟩
    exact ⟨h2, by simpa using h3⟩

/-- The values of a sponge in absorbing mode. -/
def absA (e : ACell C F → F) (s : Absorb C F r) : Sponge F (r + 1) :=
  ⟨absMode e s.mode, absState e s.state⟩

/-- The values of a sponge in squeezing mode. -/
def absS (e : ACell C F → F) (s : Squeeze C F r) : Sponge F (r + 1) :=
  ⟨absOut e s.mode, absState e s.state⟩

omit [Field F] in
theorem absMode_replicate (e : ACell C F → F) :
    absMode e (List.replicate r none) = List.replicate r none := by
  simp [absMode]

omit [Field F] in
theorem absorbBuf_abs (e : ACell C F → F) (l : List (Option (PaddedWord C F)))
    (v : PaddedWord C F) : absorbBuf (absMode e l) (v.eval e) = (absorbBuf l v).map (absMode e) :=
  absorbBuf_map _ _ _

omit [Field F] in
/-- An assignment that agrees on a buffer and a word agrees on the buffer after absorbing. -/
theorem absorbBuf_agr {e e' : ACell C F → F} {l m : List (Option (PaddedWord C F))}
    {v : PaddedWord C F} (h1 : absMode e l = absMode e' l) (h2 : v.eval e = v.eval e')
    (h : absorbBuf l v = some m) : absMode e m = absMode e' m := by
  have a1 := absorbBuf_abs e l v
  have a2 := absorbBuf_abs e' l v
  rw [h1, h2, a2, h] at a1
  simpa using a1.symm

theorem absorb_sim {cfg : Config C S r} {P : Spec F (r + 1)} (h : Good cfg P) (s : Absorb C F r)
    (hs : s.mode.length = r) (v : PaddedWord C F) :
    Sim (gates cfg P) (fun G => absA (ev G) s = absA ACell.value s ∧
        v.eval (ev G) = v.eval ACell.value) (s.absorb cfg P v) (fun s => s.mode.length = r) absA
      fun e => (absA e s).absorb P r (v.eval e) := by
  have ea : ∀ (e e' : ACell C F → F) (s : Absorb C F r), absA e s = absA e' s ↔
      absMode e s.mode = absMode e' s.mode ∧ absState e s.state = absState e' s.state := by
    intro e e' s; simp [absA]
  rcases hm : absorbBuf s.mode v with _ | m
  · have e1 : ∀ e : ACell C F → F, (absA e s).absorb P r (v.eval e)
        = (Poseidon.poseidonSponge P r (absState e s.state) (some (absMode e s.mode))).bind
          fun x => (absorbBuf (List.replicate r none) (v.eval e)).bind
            fun mode => some ⟨mode, x.1⟩ := by
      intro e
      have : absorbBuf (absA e s).mode (v.eval e) = none := by
        show absorbBuf (absMode e s.mode) (v.eval e) = none
        rw [absorbBuf_abs, hm]; rfl
      rw [Sponge.absorb, this]
      rfl
    have e2 : s.absorb cfg P v = (poseidonSponge cfg P s.state (some s.mode) >>= fun x =>
        (Region.unwrap (absorbBuf (List.replicate r none) v) >>= fun mode =>
          Pure.pure ⟨mode, x.1⟩)) := by
      rw [Absorb.absorb, hm]
    rw [e2]
    simp only [e1]
    refine ((sponge_sim h s.state (some s.mode) (fun m hm => Option.some.inj hm ▸ hs)).mono ?_).bind
      (q := fun e x => (absorbBuf (List.replicate r none) (v.eval e)).bind
        fun mode => some (Sponge.mk mode x.1)) fun x _ => ?_
    · rintro G ⟨h1, -⟩
      obtain ⟨h1, h2⟩ := (ea _ _ _).1 h1
      exact ⟨h2, by simp [h1]⟩
    · have hu := Sim.unwrap (gates := gates cfg P)
        (agr := fun G => (absA (ev G) s = absA ACell.value s ∧
          v.eval (ev G) = v.eval ACell.value) ∧ absPair (ev G) x = absPair ACell.value x)
        (absorbBuf (List.replicate r none) v) (inv := fun m => m.length = r)
        (fun b hb => by rw [absorbBuf_length hb, List.length_replicate])
        (absB := absMode) (by
          rintro G b ⟨⟨-, h1⟩, -⟩ hb
          exact absorbBuf_agr (by simp [absMode]) h1 hb)
      have e3 : ∀ e : ACell C F → F, (absorbBuf (List.replicate r none) v).map (absMode e)
          = absorbBuf (List.replicate r none) (v.eval e) := by
        intro e; rw [← absorbBuf_abs, absMode_replicate]
      simp only [e3] at hu
      refine hu.bind (q := fun e mode => some (Sponge.mk mode (absPair e x).1)) fun mode hmode => ?_
      refine Sim.pure (absB := absA) (inv := fun s => s.mode.length = r) ⟨mode, x.1⟩ hmode ?_
      rintro G ⟨⟨-, h2⟩, h3⟩
      rw [ea]
      exact ⟨h3, (Prod.ext_iff.1 h2).1⟩
  · have e1 : ∀ e : ACell C F → F, (absA e s).absorb P r (v.eval e)
        = some (absA e { s with mode := m }) := by
      intro e
      have : absorbBuf (absA e s).mode (v.eval e) = some (absMode e m) := by
        show absorbBuf (absMode e s.mode) (v.eval e) = _
        rw [absorbBuf_abs, hm]; rfl
      rw [Sponge.absorb, this]
      rfl
    have e2 : s.absorb cfg P v = Pure.pure { s with mode := m } := by
      rw [Absorb.absorb, hm]
    rw [e2]
    simp only [e1]
    refine Sim.pure (absB := absA) { s with mode := m } ?_ ?_
    · show m.length = r
      rw [absorbBuf_length hm, hs]
    · rintro G ⟨h1, h2⟩
      obtain ⟨h1, h3⟩ := (ea _ _ _).1 h1
      rw [ea]
      exact ⟨absorbBuf_agr h1 h2 hm, h3⟩

/-- Absorbing a sequence of words. -/
theorem absorbAll_sim {cfg : Config C S r} {P : Spec F (r + 1)} (h : Good cfg P)
    (l : List (PaddedWord C F)) (s : Absorb C F r) (hs : s.mode.length = r) :
    Sim (gates cfg P) (fun G => absA (ev G) s = absA ACell.value s ∧
        ∀ v ∈ l, v.eval (ev G) = v.eval ACell.value) (l.foldlM (Absorb.absorb cfg P) s)
      (fun s => s.mode.length = r) absA
      fun e => (l.map (PaddedWord.eval e)).foldlM (Sponge.absorb P r) (absA e s) := by
  induction l generalizing s with
  | nil =>
    refine Sim.pure (absB := absA) s hs ?_
    exact fun G hG => hG.1
  | cons v l ih =>
    simp only [List.foldlM_cons, List.map_cons]
    refine ((absorb_sim h s hs v).mono ?_).bind
      (q := fun e s => (l.map (PaddedWord.eval e)).foldlM (Sponge.absorb P r) s) fun a ha => ?_
    · rintro G ⟨h1, h2⟩
      exact ⟨h1, h2 v (List.mem_cons_self ..)⟩
    · refine (ih a ha).mono ?_
      rintro G ⟨⟨-, h1⟩, h2⟩
      exact ⟨h2, fun v hv => h1 v (List.mem_cons_of_mem _ hv)⟩

theorem new_sim {cfg : Config C S r} {P : Spec F (r + 1)} (h : Good cfg P) (cap : F)
    (agr : Grid C F → Prop) :
    Sim (gates cfg P) agr (Absorb.new cfg cap) (fun s => s.mode.length = r) absA
      fun _ => Sponge.new r cap := by
  have e1 : (Sponge.new r cap : Option (Sponge F (r + 1)))
      = (some (specInit r cap)).bind fun st => some ⟨List.replicate r none, st⟩ := by
    rw [new_eq (Nat.lt_succ_self r)]; simp [st]
  rw [e1]
  refine (initialState_sim h.cfg P cap agr).bind
    (q := fun _ st => some (Sponge.mk (List.replicate r none) st)) fun a _ => ?_
  have := Sim.pure (gates := gates cfg P)
    (agr := fun G => agr G ∧ absState (ev G) a = absState ACell.value a)
    (absB := absA) (⟨List.replicate r none, a⟩ : Absorb C F r)
    (inv := fun s => s.mode.length = r) (by simp) (by
      rintro G ⟨-, h2⟩
      simp [absA, absMode, h2])
  simpa [absA, absMode] using this

omit [Field F] in
theorem sponge_ext {m m' : List (Option F)} {s s' : State F (r + 1)} (h : m = m') (h' : s = s') :
    Sponge.mk m s = Sponge.mk m' s' := by rw [h, h']

theorem finish_sim {cfg : Config C S r} {P : Spec F (r + 1)} (h : Good cfg P) (s : Absorb C F r)
    (hs : s.mode.length = r) :
    Sim (gates cfg P) (fun G => absA (ev G) s = absA ACell.value s) (s.finish cfg P)
      (fun _ => True) absS fun e => (absA e s).finishAbsorbing P r := by
  refine ((sponge_sim h s.state (some s.mode) (fun m hm => Option.some.inj hm ▸ hs)).mono ?_).bind
    (q := fun _ x => some (Sponge.mk x.2 x.1)) fun x _ => ?_
  · intro G hG
    simp only [absA, Sponge.mk.injEq] at hG
    exact ⟨hG.2, by simp [hG.1]⟩
  · refine Sim.pure (absB := absS) (inv := fun _ => True) ⟨x.2, x.1⟩ trivial ?_
    rintro G ⟨-, h2⟩
    have h3 := Prod.ext_iff.1 h2
    exact sponge_ext h3.2 h3.1

theorem squeeze_sim {cfg : Config C S r} {P : Spec F (r + 1)} (h : Good cfg P) (s : Squeeze C F r) :
    Sim (gates cfg P) (fun G => absS (ev G) s = absS ACell.value s) (s.squeeze cfg P)
      (fun _ => True) (fun e x => (e x.1, absS e x.2)) fun e => (absS e s).squeeze P r := by
  have agr : ∀ {e e' : ACell C F → F} {l m : List (Option (ACell C F))} {v : ACell C F},
      absOut e l = absOut e' l → squeezeBuf l = some (v, m) → e v = e' v ∧ absOut e m = absOut e' m := by
    intro e e' l m v h1 h2
    have a1 := squeezeBuf_map e l
    have a2 := squeezeBuf_map e' l
    rw [show l.map (Option.map e) = l.map (Option.map e') from h1, a2, h2] at a1
    simp only [Option.map_some, Option.some.injEq, Prod.mk.injEq] at a1
    exact ⟨a1.1.symm, a1.2.symm⟩
  rcases hm : squeezeBuf s.mode with _ | ⟨v, m⟩
  · have e1 : ∀ e : ACell C F → F, (absS e s).squeeze P r
        = (Poseidon.poseidonSponge P r (absState e s.state) none).bind fun x =>
          (squeezeBuf x.2).bind fun y => some (y.1, ⟨y.2, x.1⟩) := by
      intro e
      have : squeezeBuf (absS e s).mode = none := by
        show squeezeBuf (s.mode.map (Option.map e)) = none
        rw [squeezeBuf_map, hm]; rfl
      rw [Sponge.squeeze, this]
      rfl
    have e2 : s.squeeze cfg P = (poseidonSponge cfg P s.state none >>= fun x =>
        (Region.unwrap (squeezeBuf x.2) >>= fun y => Pure.pure (y.1, ⟨y.2, x.1⟩))) := by
      rw [Squeeze.squeeze, hm]
    rw [e2]
    simp only [e1]
    refine ((sponge_sim h s.state none (by simp)).mono ?_).bind
      (q := fun _ x => (squeezeBuf x.2).bind fun y => some (y.1, Sponge.mk y.2 x.1)) fun x _ => ?_
    · intro G hG
      simp only [absS, Sponge.mk.injEq] at hG
      exact ⟨hG.2, rfl⟩
    · have hu := Sim.unwrap (gates := gates cfg P)
        (agr := fun G => absS (ev G) s = absS ACell.value s ∧
          absPair (ev G) x = absPair ACell.value x)
        (squeezeBuf x.2) (inv := fun _ => True) (fun _ _ => trivial)
        (absB := fun e y => (e y.1, absOut e y.2)) (by
          rintro G ⟨y, m⟩ ⟨-, h1⟩ hb
          obtain ⟨h2, h3⟩ := agr (Prod.ext_iff.1 h1).2 hb
          exact Prod.ext h2 h3)
      have e3 : ∀ e : ACell C F → F, (squeezeBuf x.2).map (fun y => (e y.1, absOut e y.2))
          = squeezeBuf (absPair e x).2 := fun e => (squeezeBuf_map e x.2).symm
      simp only [e3] at hu
      refine hu.bind (q := fun e y => some (y.1, Sponge.mk y.2 (absPair e x).1)) fun y _ => ?_
      refine Sim.pure (inv := fun _ => True) (absB := fun e (x : ACell C F × Squeeze C F r) => (e x.1, absS e x.2))
        (y.1, ⟨y.2, x.1⟩) trivial ?_
      rintro G ⟨⟨-, h2⟩, h3⟩
      have h4 := Prod.ext_iff.1 h3
      exact Prod.ext h4.1 (sponge_ext h4.2 (Prod.ext_iff.1 h2).1)
  · have e1 : ∀ e : ACell C F → F, (absS e s).squeeze P r
        = some (e v, absS e { s with mode := m }) := by
      intro e
      have : squeezeBuf (absS e s).mode = some (e v, absOut e m) := by
        show squeezeBuf (s.mode.map (Option.map e)) = _
        rw [squeezeBuf_map, hm]; rfl
      rw [Sponge.squeeze, this]
      rfl
    have e2 : s.squeeze cfg P = Pure.pure (v, { s with mode := m }) := by
      rw [Squeeze.squeeze, hm]
    rw [e2]
    simp only [e1]
    refine Sim.pure (inv := fun _ => True) (absB := fun e (x : ACell C F × Squeeze C F r) => (e x.1, absS e x.2))
      (v, { s with mode := m }) trivial ?_
    intro G hG
    simp only [absS, Sponge.mk.injEq] at hG
    obtain ⟨h2, h3⟩ := agr hG.1 hm
    exact Prod.ext h2 (sponge_ext h3 hG.2)

theorem many_sim {cfg : Config C S r} {P : Spec F (r + 1)} (h : Good cfg P) (m : ℕ)
    (s : Squeeze C F r) :
    Sim (gates cfg P) (fun G => absS (ev G) s = absS ACell.value s) (s.many cfg P m)
      (fun _ => True) (fun e x => (x.1.map e, absS e x.2))
      fun e => (absS e s).squeezeMany P r m := by
  induction m generalizing s with
  | zero =>
    refine Sim.pure (inv := fun _ => True) (absB := fun e (x : List (ACell C F) × Squeeze C F r) => (x.1.map e, absS e x.2))
      ([], s) trivial ?_
    intro G hG
    simp [hG]
  | succ m ih =>
    refine (squeeze_sim h s).bind (q := fun _ x => (Sponge.squeezeMany P r m x.2).bind fun y =>
      some (x.1 :: y.1, y.2)) fun x _ => ?_
    refine ((ih x.2).mono ?_).bind
      (q := fun e y => some (e x.1 :: y.1, y.2)) ?_
    · exact fun G hG => (Prod.ext_iff.1 hG.2).2
    · intro y _
      refine Sim.pure (inv := fun _ => True) (absB := fun e (x : List (ACell C F) × Squeeze C F r) =>
        (x.1.map e, absS e x.2)) (x.1 :: y.1, y.2) trivial ?_
      rintro G ⟨⟨-, h1⟩, h2⟩
      have h3 := Prod.ext_iff.1 h1
      have h4 := Prod.ext_iff.1 h2
      simp only [List.map_cons] at *
      rw [h3.1, h4.1, h4.2]

/-- **C43**: a run of the sponge gadget is a run of the sponge on field elements. -/
theorem run_sim {cfg : Config C S r} {P : Spec F (r + 1)} (h : Good cfg P) (cap : F)
    (l : List (PaddedWord C F)) (m : ℕ) :
    Sim (gates cfg P) (fun G => ∀ v ∈ l, v.eval (ev G) = v.eval ACell.value)
      (run cfg P cap l m) (fun _ => True) (fun e x => x.map e)
      fun e => Sponge.run P r cap (l.map (PaddedWord.eval e)) m := by
  refine (new_sim h cap _).bind (q := fun e s =>
    ((l.map (PaddedWord.eval e)).foldlM (Sponge.absorb P r) s).bind fun s =>
      (s.finishAbsorbing P r).bind fun s => (s.squeezeMany P r m).bind fun x => some x.1)
    fun s hs => ?_
  refine ((absorbAll_sim h l s hs).mono ?_).bind (q := fun _ s =>
    (s.finishAbsorbing P r).bind fun s => (s.squeezeMany P r m).bind fun x => some x.1)
    fun s hs => ?_
  · exact fun G hG => ⟨hG.2, hG.1⟩
  refine ((finish_sim h s hs).mono ?_).bind
    (q := fun _ s => (s.squeezeMany P r m).bind fun x => some x.1) fun s _ => ?_
  · exact fun G hG => hG.2
  refine ((many_sim h m s).mono ?_).bind (q := fun _ x => some x.1) fun x _ => ?_
  · exact fun G hG => hG.2
  refine Sim.pure (inv := fun _ => True) (absB := fun e (x : List (ACell C F)) => x.map e) x.1 trivial ?_
  rintro G ⟨-, h2⟩
  exact (Prod.ext_iff.1 h2).1

theorem hash_sim {cfg : Config C S r} {P : Spec F (r + 1)} (h : Good cfg P)
    (msg : List (ACell C F)) :
    Sim (gates cfg P) (fun G => ∀ a ∈ msg, ev G a = a.value)
      (hash cfg P msg) (fun _ => True) (fun e x => e x)
      fun e => Poseidon.hash P r (msg.map e) := by
  have e0 : ∀ e : ACell C F → F, Poseidon.hash P r (msg.map e)
      = (Sponge.new r (initialCapacityElement msg.length)).bind fun s =>
        (padding r msg.length).bind fun pad =>
        ((msg.map PaddedWord.message ++ pad.map PaddedWord.padding).map (PaddedWord.eval e)).foldlM
          (Sponge.absorb P r) s |>.bind fun s =>
        (s.finishAbsorbing P r).bind fun s => (s.squeeze P r).bind fun x => some x.1 := by
    intro e
    rw [Poseidon.hash, List.length_map]
    simp only [List.map_append, List.map_map]
    have : ∀ l : List F, l.map (PaddedWord.eval e ∘ PaddedWord.padding) = l := fun l => by
      rw [show (PaddedWord.eval e ∘ PaddedWord.padding : F → F) = id from rfl, List.map_id]
    simp only [this]
    rfl
  simp only [e0]
  refine (new_sim h (initialCapacityElement msg.length) _).bind (q := fun e s =>
    (padding r msg.length).bind fun pad =>
        ((msg.map PaddedWord.message ++ pad.map PaddedWord.padding).map (PaddedWord.eval e)).foldlM
          (Sponge.absorb P r) s |>.bind fun s =>
        (s.finishAbsorbing P r).bind fun s => (s.squeeze P r).bind fun x => some x.1)
    fun s hs => ?_
  have hu := Sim.unwrap (gates := gates cfg P)
    (agr := fun G => (∀ a ∈ msg, ev G a = a.value) ∧ absA (ev G) s = absA ACell.value s)
    (padding r msg.length : Option (List F)) (inv := fun _ => True) (fun _ _ => trivial)
    (absB := fun _ y => y) (fun _ _ _ _ => rfl)
  simp only [Option.map_id'] at hu
  refine hu.bind (q := fun e pad =>
    (((msg.map PaddedWord.message ++ pad.map PaddedWord.padding).map (PaddedWord.eval e)).foldlM
          (Sponge.absorb P r) (absA e s)).bind fun s =>
        (s.finishAbsorbing P r).bind fun s => (s.squeeze P r).bind fun x => some x.1)
    fun pad _ => ?_
  refine ((absorbAll_sim h (msg.map PaddedWord.message ++ pad.map PaddedWord.padding) s hs).mono
    ?_).bind (q := fun _ s =>
    (s.finishAbsorbing P r).bind fun s => (s.squeeze P r).bind fun x => some x.1)
    fun s hs => ?_
  · rintro G ⟨⟨h1, h2⟩, -⟩
    refine ⟨h2, fun v hv => ?_⟩
    rcases List.mem_append.1 hv with hv | hv
    · obtain ⟨a, ha, rfl⟩ := List.mem_map.1 hv
      exact h1 a ha
    · obtain ⟨a, ha, rfl⟩ := List.mem_map.1 hv
      rfl
  refine ((finish_sim h s hs).mono ?_).bind
    (q := fun _ s => (s.squeeze P r).bind fun x => some x.1) fun s _ => ?_
  · exact fun G hG => hG.2
  refine ((squeeze_sim h s).mono ?_).bind (q := fun _ x => some x.1) fun x _ => ?_
  · exact fun G hG => hG.2
  refine Sim.pure (inv := fun _ => True) (absB := fun e (x : ACell C F) => e x) x.1 trivial ?_
  rintro G ⟨-, h2⟩
  exact (Prod.ext_iff.1 h2).1

/-- **C43**: hashing a non-empty sequence of cells with the gadget succeeds; every assignment that
satisfies the constraints has the hash of the message cells in the result cell; the witnesses
are such an assignment and do not contradict each other. -/
theorem hash_ok {cfg : Config C S r} {P : Spec F (r + 1)} (h : Good cfg P) (hr : 0 < r)
    (msg : List (ACell C F)) (hne : msg ≠ []) (n : ℕ) :
    ∃ out n' ops, hash cfg P msg n = some (out, n', ops) ∧ Layout n n' ops ∧
      Poseidon.hash P r (msg.map ACell.value) = some out.value ∧
      ∀ G : Grid C F,
        (Sat (gates cfg P) G ops →
          Poseidon.hash P r (msg.map fun a => G.at a.cell) = some (G.at out.cell)) ∧
        (Honest G ops → (∀ a ∈ msg, G.at a.cell = a.value) →
          Sat (gates cfg P) G ops ∧ G.at out.cell = out.value) := by
  obtain ⟨-, h1⟩ := hash_sim h msg n
  have h2 := hash_eq P hr (Nat.lt_succ_self r) (msg.map ACell.value)
  rw [if_neg (by simpa using hne)] at h2
  obtain ⟨b, n', ops, e1, e2, -, e4, e5⟩ := h1 _ h2
  exact ⟨b, n', ops, e1, e4, h2.trans (congrArg some e2.symm), e5⟩

/-- A toy configuration, width 3. -/
def toyConfig : Config ℕ (Fin 3) 2 :=
  ⟨fun i => i.1, 3, fun i => 4 + i.1, fun i => 7 + i.1, 0, 1, 2⟩

/-- A toy specification over the rationals, width 3. -/
def toy : Spec ℚ 3 :=
  ⟨2, 2, fun x => x ^ 5, List.replicate 4 fun i => i.1 + 1, ![![2, 1, 1], ![1, 1, 1], ![1, 1, 2]],
    ![![1, -1, 0], ![-1, 3, -1], ![0, -1, 1]]⟩

theorem toy_good : Good toyConfig toy where
  cfg := by
    constructor <;> simp [toyConfig, Function.Injective, Fin.ext_iff] <;> omega
  even := ⟨rfl, rfl⟩
  sbox := rfl
  inv := by
    ext i j
    fin_cases i <;> fin_cases j <;> simp [toy, Matrix.mul_apply, Fin.sum_univ_three] <;> norm_num
  rounds := le_rfl

/-- The hypotheses of `permute_ok` and `hash_ok` are met, for instance when hashing three cells. -/
example (n : ℕ) : ∃ out n' ops, hash toyConfig toy
    [⟨⟨0, 0, 0⟩, 5⟩, ⟨⟨0, 0, 1⟩, 6⟩, ⟨⟨0, 0, 2⟩, 7⟩] n = some (out, n', ops) ∧ Layout n n' ops := by
  obtain ⟨out, n', ops, h1, h2, -⟩ := hash_ok toy_good (by omega)
    [⟨⟨0, 0, 0⟩, 5⟩, ⟨⟨0, 0, 1⟩, 6⟩, ⟨⟨0, 0, 2⟩, 7⟩] (by simp) n
  exact ⟨out, n', ops, h1, h2⟩

end Verif.Pow5
