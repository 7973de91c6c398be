import Verif.EccApi.Lift
import Verif.EccApi.Props
import Verif.EccApi.MulHonest
import Verif.MulFixed.Full
import Verif.MulFixed.ShortComplete

/-!
# Circuits made of the gadget's calls are accepted (C79)

The prover's side: what the calls mean for a prover with given inputs, and that the assignment it
computes meets all the constraints.
-/

namespace Verif.Region

variable {C S F : Type}

/-- The cell assigned by an operation. -/
def Op.assigns : Op C S F → Option (Cell C)
  | .advice c _ => some c
  | .fixed c _ => some c
  | _ => none

theorem Consistent.of_cells {ops : List (Op C S F)} (h : (ops.filterMap Op.assigns).Nodup) :
    Consistent ops := by
  have mem : ∀ (ops : List (Op C S F)) c v, Assigned ops c v → c ∈ ops.filterMap Op.assigns := by
    intro ops c v hv
    rcases hv with hv | hv <;> exact List.mem_filterMap.2 ⟨_, hv, rfl⟩
  induction ops with
  | nil => exact Consistent.nil
  | cons op ops ih =>
    have hcons : ∀ c v, Assigned (op :: ops) c v →
        (op = .advice c v ∨ op = .fixed c v) ∨ Assigned ops c v := by
      intro c v hv
      simp only [Assigned, List.mem_cons] at hv ⊢
      tauto
    have hop : ∀ c v, (op = .advice c v ∨ op = .fixed c v) → op.assigns = some c := by
      rintro c v (rfl | rfl) <;> rfl
    intro c v w hv hw
    have hsep : ∀ v w, (op = .advice c v ∨ op = .fixed c v) → Assigned ops c w → False := by
      intro v w h1 h2
      rw [List.filterMap_cons, hop c v h1] at h
      exact (List.nodup_cons.1 h).1 (mem ops c w h2)
    rcases hcons c v hv with h1 | h1 <;> rcases hcons c w hw with h2 | h2
    · rcases h1 with rfl | rfl <;> rcases h2 with h2 | h2 <;> cases h2 <;> rfl
    · exact (hsep v w h1 h2).elim
    · exact (hsep w v h2 h1).elim
    · refine ih ?_ c v w h1 h2
      rw [List.filterMap_cons] at h
      split at h
      · exact h
      · exact (List.nodup_cons.1 h).2

theorem Consistent.of_grid {ops : List (Op C S F)} {A : Fin 10 → C} (hA : Function.Injective A)
    {reg : ℕ} (L : List (Fin 10 × ℕ)) (hL : L.Nodup)
    (h : ops.filterMap Op.assigns = L.map fun x => ⟨reg, A x.1, (x.2 : ℕ)⟩) : Consistent ops := by
  refine Consistent.of_cells ?_
  rw [h]
  refine List.Nodup.map ?_ hL
  rintro ⟨i, r⟩ ⟨j, t⟩ e
  simp only [Cell.mk.injEq, true_and, Nat.cast_inj] at e
  rw [hA e.1, e.2]

/-- Parts in different regions. -/
theorem Consistent.local {α β : Type} {f : M C S F α} {g : M C S F β} {n m n' : ℕ} {a : α} {b : β}
    {o o' : List (Op C S F)} (hf : Local f) (hg : Local g) (h1 : f n = some (a, m, o))
    (h2 : g m = some (b, n', o')) (c1 : Consistent o) (c2 : Consistent o') : Consistent (o ++ o') := by
  refine c1.append c2 (A := fun c => c.reg < m) (B := fun c => m ≤ c.reg) ?_ ?_ ?_
  · rintro c v (h | h) <;> exact ((hf _ _ _ _ h1).2 _ h c.reg rfl).2
  · rintro c v (h | h) <;> exact ((hg _ _ _ _ h2).2 _ h c.reg rfl).1
  · intro c h1 h2
    omega

end Verif.Region

namespace Verif.EccApi

open Verif.Region Verif.Ecc Verif.MulFixed

variable {C S : Type} {p q : ℕ} [Fact p.Prime] [Fact q.Prime] {b : ZMod p}

/-! ## The prover's values -/

/-- The values behind the prover's handles, and whether a scalar for a fixed base has been used. -/
structure HVals (b : ZMod p) (q : ℕ) where
  points : List (Pt b) := []
  nonIds : List (Pt b) := []
  vars : List (ZMod p) := []
  scalarVars : List (ZMod p) := []
  scalarsFixed : List (ZMod q × Bool) := []
  scalarsShort : List ((ZMod p × ZMod p) × Bool) := []

def HVals.arg (v : HVals b q) : Arg → Option (Pt b)
  | .point i => v.points[i]?
  | .nonId i => v.nonIds[i]?

/-- What a used scalar stands for. -/
def used (x : ZMod q × Bool) : Option ℕ := if x.2 then some x.1.val else none

/-- The values that the circuit has to compute. -/
def HVals.vals (v : HVals b q) : Vals b :=
  ⟨v.points, v.nonIds, v.vars, v.scalarVars, v.scalarsFixed.map used, v.scalarsShort.map Prod.fst⟩

/-- What one call computes from the prover's inputs, where it is meant to succeed. -/
inductive HStep : HVals b q → Call b q → HVals b q → Prop
  | loadPrivate {v col x} : HStep v (.loadPrivate col x) { v with vars := v.vars ++ [x] }
  | newPoint {v P} : HStep v (.newPoint P) { v with points := v.points ++ [P] }
  | newConstant {v P} : HStep v (.newConstant P) { v with points := v.points ++ [P] }
  | newNonId {v P} (h : P ≠ 0) : HStep v (.newNonId P) { v with nonIds := v.nonIds ++ [P] }
  | constrainEqual {v x y P} (hx : v.arg x = some P) (hy : v.arg y = some P) :
    HStep v (.constrainEqual x y) v
  | extractP {v x P} (hx : v.arg x = some P) :
    HStep v (.extractP x) { v with vars := v.vars ++ [(enc P).1] }
  | add {v x y P Q} (hx : v.arg x = some P) (hy : v.arg y = some Q) :
    HStep v (.add x y) { v with points := v.points ++ [P + Q] }
  | addIncomplete {v i j P Q} (hx : v.nonIds[i]? = some P) (hy : v.nonIds[j]? = some Q)
    (h1 : P ≠ Q) (h2 : P ≠ -Q) :
    HStep v (.addIncomplete i j) { v with nonIds := v.nonIds ++ [P + Q] }
  | mulSignPos {v i j P} (hx : v.points[i]? = some P) (hs : v.vars[j]? = some 1) :
    HStep v (.mulSign i j) { v with points := v.points ++ [P] }
  | mulSignNeg {v i j P} (hx : v.points[i]? = some P) (hs : v.vars[j]? = some (-1)) :
    HStep v (.mulSign i j) { v with points := v.points ++ [-P] }
  | scalarVarFromBase {v i a} (h : v.vars[i]? = some a) :
    HStep v (.scalarVarFromBase i) { v with scalarVars := v.scalarVars ++ [a] }
  | mul {v i j P k} (hx : v.nonIds[i]? = some P) (hk : v.scalarVars[j]? = some k) :
    HStep v (.mul i j)
      { v with points := v.points ++ [k.val • P], scalarVars := v.scalarVars ++ [k] }
  | newScalarFixed {v x} :
    HStep v (.newScalarFixed x) { v with scalarsFixed := v.scalarsFixed ++ [(x, false)] }
  | mulFixed {v base j} {k : ZMod q} (hs : v.scalarsFixed[j]? = some (k, false)) :
    HStep v (.mulFixed base j)
      { v with
        points := v.points ++ [k.val • base.generator],
        scalarsFixed := v.scalarsFixed ++ [(k, true)] }
  | newScalarFixedShort {v i j m s} (hm : v.vars[i]? = some m) (hs : v.vars[j]? = some s) :
    HStep v (.newScalarFixedShort i j) { v with scalarsShort := v.scalarsShort ++ [((m, s), false)] }
  | mulFixedShortPos {v base j} {m : ℕ} (hs : v.scalarsShort[j]? = some (((m : ZMod p), 1), false))
    (hm : m < 2 ^ 64) :
    HStep v (.mulFixedShort base j)
      { v with
        points := v.points ++ [m • base.generator],
        scalarsShort := v.scalarsShort ++ [(((m : ZMod p), 1), true)] }
  | mulFixedShortNeg {v base j} {m : ℕ} (hs : v.scalarsShort[j]? = some (((m : ZMod p), -1), false))
    (hm : m < 2 ^ 64) :
    HStep v (.mulFixedShort base j)
      { v with
        points := v.points ++ [-(m • base.generator)],
        scalarsShort := v.scalarsShort ++ [(((m : ZMod p), -1), true)] }
  | mulFixedBaseField {v base i a} (h : v.vars[i]? = some a) :
    HStep v (.mulFixedBaseField base i) { v with points := v.points ++ [a.val • base.generator] }

/-- What a list of calls computes. -/
inductive HSteps : HVals b q → List (Call b q) → HVals b q → Prop
  | nil {v} : HSteps v [] v
  | cons {v v' v'' c cs} (h : HStep v c v') (hs : HSteps v' cs v'') : HSteps v (c :: cs) v''

/-- What the prover computes is one of the things the calls can mean. -/
theorem HStep.step (hq : q ≤ 2 ^ 255) {v v' : HVals b q} {c : Call b q} (h : HStep v c v') :
    Step v.vals c v'.vals := by
  have harg : ∀ x, v.vals.arg x = v.arg x := fun x => by cases x <;> rfl
  cases h with
  | loadPrivate => exact .loadPrivate _
  | newPoint => exact .newPoint _
  | newConstant => exact .newConstant
  | newNonId h => exact .newNonId h
  | constrainEqual hx hy => exact .constrainEqual ((harg _).trans hx) ((harg _).trans hy)
  | extractP hx => exact .extractP ((harg _).trans hx)
  | add hx hy => exact .add ((harg _).trans hx) ((harg _).trans hy)
  | addIncomplete hx hy h1 h2 => exact .addIncomplete hx hy h1 h2
  | mulSignPos hx hs => exact .mulSignPos hx hs
  | mulSignNeg hx hs => exact .mulSignNeg hx hs
  | scalarVarFromBase h => exact .scalarVarFromBase h
  | mul hx hk => exact .mul hx hk
  | newScalarFixed =>
    unfold HVals.vals
    rw [List.map_append]
    exact .newScalarFixed
  | @mulFixed base j k hs =>
    unfold HVals.vals
    rw [List.map_append]
    refine .mulFixed (j := j) (k := k.val) ?_ (lt_of_lt_of_le (ZMod.val_lt k) hq)
    show (v.scalarsFixed.map used)[j]? = _
    rw [List.getElem?_map, hs]; rfl
  | newScalarFixedShort hm hs =>
    unfold HVals.vals
    rw [List.map_append]
    exact .newScalarFixedShort hm hs
  | @mulFixedShortPos base j m hs hm =>
    unfold HVals.vals
    rw [List.map_append]
    refine .mulFixedShortPos (j := j) ?_ hm
    show (v.scalarsShort.map Prod.fst)[j]? = _
    rw [List.getElem?_map, hs]; rfl
  | @mulFixedShortNeg base j m hs hm =>
    unfold HVals.vals
    rw [List.map_append]
    refine .mulFixedShortNeg (j := j) ?_ hm
    show (v.scalarsShort.map Prod.fst)[j]? = _
    rw [List.getElem?_map, hs]; rfl
  | mulFixedBaseField h => exact .mulFixedBaseField h

theorem HSteps.steps (hq : q ≤ 2 ^ 255) {v v' : HVals b q} {cs : List (Call b q)} (h : HSteps v cs v') :
    Steps v.vals cs v'.vals := by
  induction h with
  | nil => exact .nil
  | cons h _ ih => exact .cons (h.step hq) ih

/-- The witnesses recorded in the handles are the values. -/
structure Matches (e : Env C p q) (v : HVals b q) : Prop where
  points : List.Forall₂ Val e.points v.points
  nonIds : List.Forall₂ (fun x P => Val x P ∧ P ≠ 0) e.nonIds v.nonIds
  vars : List.Forall₂ (fun x a => x.value = a) e.vars v.vars
  scalarVars : List.Forall₂ (fun x a => x.value = a) e.scalarVars v.scalarVars
  scalarsFixed : List.Forall₂ (fun x k => x.value = k.1 ∧ (k.2 = false → x.windows = none))
    e.scalarsFixed v.scalarsFixed
  scalarsShort : List.Forall₂ (fun x m => x.magnitude.value = m.1.1 ∧ x.sign.value = m.1.2 ∧
    (m.2 = false → x.runningSum = none)) e.scalarsShort v.scalarsShort

theorem Matches.empty : Matches ({} : Env C p q) ({} : HVals b q) :=
  ⟨.nil, .nil, .nil, .nil, .nil, .nil⟩

theorem get_of' {α β : Type} {R : α → β → Prop} {l : List α} {m : List β} (h : List.Forall₂ R l m)
    {i : ℕ} {b : β} (hi : m[i]? = some b) : ∃ a, l[i]? = some a ∧ R a b := get_of h.flip hi

theorem Matches.arg {e : Env C p q} {v : HVals b q} (h : Matches e v) {x : Arg} {P : Pt b}
    (hx : v.arg x = some P) : ∃ a, e.arg x = some a ∧ Val a P := by
  cases x with
  | point i => exact get_of' h.points hx
  | nonId i =>
    obtain ⟨a, h1, h2, -⟩ := get_of' h.nonIds hx
    exact ⟨a, h1, h2⟩

theorem same {α β : Type} {R : α → β → Prop} {l : List α} {m : List β} (h : List.Forall₂ R l m)
    {i : ℕ} {a : α} {b : β} (hl : l[i]? = some a) (hm : m[i]? = some b) : R a b := by
  obtain ⟨b', h1, h2⟩ := get_of h hl
  rw [hm] at h1
  cases h1
  exact h2

theorem Agrees.holds {G : Grid C (ZMod p)} {e : Env C p q} {v : HVals b q} (h : Agrees G e v.vals)
    {x : Arg} {a : EccPoint C (ZMod p)} {P : Pt b} (hx : e.arg x = some a) (hv : v.arg x = some P) :
    Holds G a P := by
  cases x with
  | point i => exact same h.points hx hv
  | nonId i => exact (same h.nonIds hx hv).1

theorem unwrap_of {α F : Type} {x : Option α} {a : α} (h : x = some a) (n : ℕ) :
    (unwrap x : M C S F α) n = some (a, n, []) := by rw [h]; rfl

theorem assert_of {F : Type} {c : Prop} [Decidable c] (h : c) (n : ℕ) :
    (assert c : M C S F Unit) n = some ((), n, []) := if_pos h

theorem region_of {α F : Type} {f : ℕ → M C S F α} {n n' : ℕ} {a : α} {ops : List (Op C S F)}
    (h : f n (n + 1) = some (a, n', ops)) : assignRegion f n = some (a, n', ops) := h

/-! ## One call -/

section

variable {advices : Fin 10 → C} {lagrangeCoeffs : Fin 8 → C} {fixedZ : C}
  {rangeCheck : LookupRange.Config C S} {s : Selectors S}

/-- What a call leaves behind. -/
structure Done (cfg : Config C S) (e e' : Env C p q) (v v' : HVals b q)
    (ops : List (Op C S (ZMod p))) : Prop where
  fits : Matches e' v'
  consistent : Consistent ops
  sat : ∀ G, Honest G ops → Agrees G e v.vals → Sat (gates b cfg) G ops ∧
    (∀ reg, SatLookup (LookupRange.lookup 10 cfg.lookup) G ops reg) ∧ Agrees G e' v'.vals

theorem Holds.cells {G : Grid C (ZMod p)} {x : EccPoint C (ZMod p)} {P : Pt b} (h : Holds G x P)
    (h' : Val x P) : G.at x.x.cell = x.x.value ∧ G.at x.y.cell = x.y.value := by
  have : (G.at x.x.cell, G.at x.y.cell) = (x.x.value, x.y.value) := h.symm.trans h'
  exact Prod.mk.injEq .. ▸ this

theorem mul_complete (hp : 2 ^ 254 < p) (hpT : p + Mul.T_Q ≤ 2 ^ 254 + 2 ^ 130) (hg : Good b)
    (hf : Fresh advices lagrangeCoeffs fixedZ rangeCheck s) (hq : Mul.order.Prime) (fix : Bool)
    {k : ACell C (ZMod p)} {x : EccPoint C (ZMod p)} (n : ℕ) {P : Pt b} (hP : Val x P) (hP0 : P ≠ 0)
    (hord : Mul.order • P = 0) :
    ∃ r ops, mul fix (configure advices lagrangeCoeffs fixedZ rangeCheck s).mul k x n
        = some (r, n + 4, ops) ∧ Val r (k.value.val • P) ∧ Consistent ops ∧
      (∀ t reg row, .enable t reg row ∈ ops →
        t ∈ [3, 4, 5, 6, 7, 8, 9, 10, 11, 12, 17, 18].map (sel rangeCheck s)) ∧
      ∀ G, Honest G ops → Holds G x P → G.at k.cell = k.value →
        Sat (Mul.gates (configure advices lagrangeCoeffs fixedZ rangeCheck s).mul) G ops ∧
        (∀ reg, SatLookup (LookupRange.lookup 10 rangeCheck) G ops reg) ∧
        Holds G r (k.value.val • P) := by
  have hok := (configure_ok hf).mul
  have hA : Function.Injective advices := List.nodup_ofFn.1 (List.nodup_append.1 hf.cols).1
  obtain ⟨cfg, hcfg⟩ : ∃ cfg, cfg = (configure advices lagrangeCoeffs fixedZ rangeCheck s).mul :=
    ⟨_, rfl⟩
  have hcfg' : cfg = MulHonest.mulConfig advices rangeCheck s := hcfg
  rw [← hcfg] at hok ⊢
  have hlen : (Mul.bHi k ++ Mul.bLo k).length = 251 := by
    rw [List.length_append, Mul.bHi_length, Mul.bLo_length]
  have hnd : Mul.NonDeg P (2 • P) (Mul.bHi k ++ Mul.bLo k) := by
    refine Mul.nonDeg hq hP0 hord ?_
    rw [hlen]; exact Mul.order_big
  obtain ⟨ex1, ex2, -⟩ := Mul.region_complete hg hok n hP hP hnd
  have hrun := Mul.assignWith_run (cfg := cfg) (alpha := k) (base := x) (b1 := x) (reg := n)
    (by rintro rfl; norm_num at hp) ex1 ex2
  obtain ⟨r, ops, h1, hv, hsat⟩ := Mul.assign_complete hp hpT hg hok hq (alpha := k) n hP hP0 hord
  have e : some (r, n + 4, ops) = some _ := h1.symm.trans hrun
  simp only [Option.some.injEq, Prod.mk.injEq, true_and] at e
  have hcon : Consistent ops := by
    rw [e.2, hcfg']
    exact MulHonest.consistent hA k x n
  have hb := MulHonest.base_assigned cfg k x n
  rw [← e.2] at hb
  have huse : ∀ t reg row, .enable t reg row ∈ ops →
      t ∈ [3, 4, 5, 6, 7, 8, 9, 10, 11, 12, 17, 18].map (sel rangeCheck s) := by
    refine mulAssign_uses (cfg := cfg) (fun t ht => ?_) n r (n + 4) ops h1
    rw [hcfg] at ht
    have : t ∈ [3, 4, 5, 6, 7, 8, 9, 3, 10, 12, 11, 17, 18].map (sel rangeCheck s) := ht
    exact List.map_subset _ (by decide) this
  have hlk : cfg.overflow.lookup = rangeCheck := by rw [hcfg]; rfl
  rw [hlk] at hsat
  cases fix with
  | false =>
    refine ⟨r, ops ++ [], bind_of h1 rfl, hv, ?_⟩
    rw [List.append_nil]
    exact ⟨hcon, huse, hsat⟩
  | true =>
    obtain ⟨o2, ho2⟩ : ∃ o2 : List (Op C S (ZMod p)), o2 = [.equal ⟨n, cfg.hi.da.xP, 2⟩ x.x.cell,
      .equal ⟨n, cfg.hi.yP, 2⟩ x.y.cell, .equal ⟨n, cfg.lo.da.xP, 2⟩ x.x.cell,
      .equal ⟨n, cfg.lo.yP, 2⟩ x.y.cell] := ⟨_, rfl⟩
    have hna : ∀ t reg row, .enable t reg row ∉ o2 := by intro t reg row hm; simp [ho2] at hm
    refine ⟨r, ops ++ o2, bind_of h1 (by rw [ho2]; rfl), hv, ?_, ?_, ?_⟩
    · have : Within o2 fun _ => False := by
        intro c v h
        simp [ho2, Assigned] at h
      exact hcon.append (fun c v w h _ => (this c v h).elim) (A := fun _ => True) (fun _ _ _ => trivial)
        this fun _ _ h => h
    · intro t reg row hm
      rcases List.mem_append.1 hm with hm | hm
      · exact huse _ _ _ hm
      · exact (hna _ _ _ hm).elim
    · intro G hG hx hk
      have hG1 : Honest G ops := hG.left
      obtain ⟨s1, l1, r1⟩ := hsat G hG1 hx hk
      obtain ⟨c1, c2⟩ := Holds.cells hx hP
      refine ⟨s1.append ⟨?_, ?_, ?_, ?_⟩, ?_, r1⟩
      · intro g _ reg row hm
        exact (hna _ _ _ hm).elim
      · intro a c hm
        have q1 := hG1.1 _ _ hb.1
        have q2 := hG1.1 _ _ hb.2.1
        have q3 := hG1.1 _ _ hb.2.2.1
        have q4 := hG1.1 _ _ hb.2.2.2
        simp only [ho2, List.mem_cons, Op.equal.injEq, List.not_mem_nil, or_false] at hm
        rcases hm with ⟨rfl, rfl⟩ | ⟨rfl, rfl⟩ | ⟨rfl, rfl⟩ | ⟨rfl, rfl⟩
        · rw [q1, c1]
        · rw [q2, c2]
        · rw [q3, c1]
        · rw [q4, c2]
      · intro a v hm; simp [ho2] at hm
      · intro a v hm; simp [ho2] at hm
      · intro reg row
        have hsel : selectors (F := ZMod p) (ops ++ o2) reg row = selectors ops reg row := by
          funext t
          unfold selectors
          by_cases hm : .enable t reg row ∈ ops
          · rw [if_pos hm, if_pos (List.mem_append_left _ hm)]
          · rw [if_neg hm, if_neg fun h => (List.mem_append.1 h).elim hm (hna _ _ _)]
        rw [hsel]
        exact l1 reg row

/-- One call with the prover's values. -/
theorem call_complete (hcv : Curve b) (hqo : q = Mul.order)
    (hf : Fresh advices lagrangeCoeffs fixedZ rangeCheck s) (fix : Bool) {c : Call b q}
    (hb : c.BaseOk) {v v' : HVals b q} (h : HStep v c v') {e : Env C p q} (he : Matches e v) (n : ℕ) :
    ∃ e' n' ops, call fix (configure advices lagrangeCoeffs fixedZ rangeCheck s) e c n
        = some (e', n', ops) ∧
      Done (configure advices lagrangeCoeffs fixedZ rangeCheck s) e e' v v' ops := by
  have hg := hcv.good
  have hok := configure_ok hf
  have hA : Function.Injective advices := List.nodup_ofFn.1 (List.nodup_append.1 hf.cols).1
  have hp254 : 2 ^ 254 < p := by rw [hcv.field]; unfold T_P; norm_num
  have hpT : p + Mul.T_Q ≤ 2 ^ 254 + 2 ^ 130 := by
    rw [hcv.field]; unfold T_P Mul.T_Q; norm_num
  have hp8 : 8 < p := lt_trans (by norm_num) hp254
  have hq8 : 8 ≤ q := by rw [hqo]; unfold Mul.order Mul.T_Q; norm_num
  have hq255 : q ≤ 2 ^ 255 := by rw [hqo]; unfold Mul.order Mul.T_Q; norm_num
  have hq0 : ∀ P : Pt b, q • P = 0 := by rw [hqo]; exact hcv.order
  have hnone : ∀ (ops : List (Op C S (ZMod p))) (G : Grid C (ZMod p)),
      (∀ t reg row, .enable t reg row ∉ ops) → (∀ a c, .equal a c ∈ ops → G.at a = G.at c) →
      (∀ a x, .const a x ∉ ops) → (∀ a x, .fixed a x ∉ ops) →
      Sat (gates b (configure advices lagrangeCoeffs fixedZ rangeCheck s)) G ops ∧
        ∀ reg, SatLookup (LookupRange.lookup 10 rangeCheck) G ops reg := by
    intro ops G h1 h2 h3 h4
    refine ⟨⟨fun g _ reg row hm => (h1 _ _ _ hm).elim, h2, fun a x hm => (h3 _ _ hm).elim,
      fun a x hm => (h4 _ _ hm).elim⟩, ?_⟩
    exact no_lookup hf (I := []) (fun x reg row hm => (h1 _ _ _ hm).elim) (by simp)
  have hsign : ∀ {i j : ℕ} {P : Pt b} {neg : Bool}, v.points[i]? = some P →
      v.vars[j]? = some (if neg then -1 else 1) →
      ∃ e' n' ops, call fix (configure advices lagrangeCoeffs fixedZ rangeCheck s) e
          (.mulSign i j : Call b q) n = some (e', n', ops) ∧
        Done (configure advices lagrangeCoeffs fixedZ rangeCheck s) e e' v
          { v with points := v.points ++ [Short.target neg P] } ops := by
    intro i j P neg hx hs
    obtain ⟨ax, hax, vx⟩ := get_of' he.points hx
    obtain ⟨ay, hay, vy⟩ := get_of' he.vars hs
    obtain ⟨r, ops, hrun, vr, hcon, hc⟩ := Short.assignScalarSign_complete hg (by omega)
      (cfg := (configure advices lagrangeCoeffs fixedZ rangeCheck s).mulFixedShort)
      (List.Nodup.map (l := [5, 4, 3, 1]) hA (by decide)) hok.shortSel vy vx n
    refine ⟨_, n + 1, _, bind_of (unwrap_of hax n) (bind_of (unwrap_of hay n) (bind_of hrun rfl)),
      { he with points := snoc_of he.points vr }, ?_, ?_⟩
    · rw [List.nil_append, List.nil_append, List.append_nil]
      exact hcon
    · intro G hG hv
      rw [List.nil_append, List.nil_append, List.append_nil] at hG ⊢
      obtain ⟨s1, r1⟩ := hc G hG ((same hv.vars hay hs).trans vy.symm) (same hv.points hax hx)
      have hen := sign_uses (A := fun x => x ∈ [15, 13, 3, 2].map (sel rangeCheck s))
        (cfg := (configure advices lagrangeCoeffs fixedZ rangeCheck s).mulFixedShort)
        (List.mem_cons_self ..) _ _ _ _ hrun
      exact ⟨lift_short hf hen s1, no_lookup hf hen (by decide),
        { hv with points := snoc_of hv.points r1 }⟩
  have hshort : ∀ {base : FixedPoint b} {j m : ℕ} {neg : Bool},
      (Call.mulFixedShort base j : Call b q).BaseOk →
      v.scalarsShort[j]? = some (((m : ZMod p), if neg then -1 else 1), false) → m < 2 ^ 64 →
      ∃ e' n' ops, call fix (configure advices lagrangeCoeffs fixedZ rangeCheck s) e
          (.mulFixedShort base j : Call b q) n = some (e', n', ops) ∧
        Done (configure advices lagrangeCoeffs fixedZ rangeCheck s) e e' v
          { v with
            points := v.points ++ [Short.target neg (m • base.generator)],
            scalarsShort := v.scalarsShort ++ [(((m : ZMod p), if neg then -1 else 1), true)] } ops := by
    intro base j m neg hb hs hm
    obtain ⟨ak, hak, vm, vs, hw⟩ := get_of' he.scalarsShort hs
    dsimp only at vm vs
    have hmv : ak.magnitude.value.val = m := by
      rw [vm]
      exact ZMod.val_natCast_of_lt (lt_trans hm (lt_trans (by norm_num) hp254))
    obtain ⟨r, zs, ops, hrun, vr, hcon, hc⟩ := Short.assign_complete hg hb.1 hb.2 (hq0 _) hp8 hq8
      hok.short hok.shortDistinct hok.shortSel (magnitude := ak.magnitude) (by rw [hmv]; exact hm) vs n
    rw [hmv] at vr hc
    refine ⟨_, n + 1 + 1, _, bind_of (unwrap_of hak n) (bind_of (assert_of (hw rfl) n)
      (bind_of hrun rfl)),
      { he with
        points := snoc_of he.points vr
        scalarsShort := snoc_of he.scalarsShort ⟨vm, vs, fun h => by cases h⟩ }, ?_, ?_⟩
    · rw [List.nil_append, List.nil_append, List.append_nil]
      exact hcon
    · intro G hG hv
      rw [List.nil_append, List.nil_append, List.append_nil] at hG ⊢
      have hs' : v.vals.scalarsShort[j]? = some ((m : ZMod p), if neg then -1 else 1) := by
        show (v.scalarsShort.map Prod.fst)[j]? = _
        rw [List.getElem?_map, hs]; rfl
      have hk := same hv.scalarsShort hak hs'
      obtain ⟨s1, r1⟩ := hc G hG (hk.1.trans vm.symm) (hk.2.trans vs.symm)
      have hen := short_uses (q := q) (A := fun x => x ∈ [15, 13, 3, 2].map (sel rangeCheck s))
        (cfg := (configure advices lagrangeCoeffs fixedZ rangeCheck s).mulFixedShort)
        (List.mem_cons_self ..) (fun t ht => List.mem_cons_of_mem _ ht) _ _ _ _ hrun
      refine ⟨lift_short hf hen s1, no_lookup hf hen (by decide), { hv with
        points := snoc_of hv.points r1
        scalarsShort := ?_ }⟩
      show List.Forall₂ _ _ (List.map Prod.fst _)
      rw [List.map_append]
      exact snoc_of hv.scalarsShort hk
  cases h with
  | @loadPrivate col x =>
    refine ⟨_, n + 1, [.advice ⟨n, advices col, (0 : ℕ)⟩ x], rfl,
      { he with vars := snoc_of he.vars rfl }, ?_, ?_⟩
    · exact Consistent.of_grid hA (reg := n) [(col, 0)] (by simp) rfl
    · intro G hG hv
      obtain ⟨s1, l1⟩ := hnone [.advice ⟨n, advices col, (0 : ℕ)⟩ x] G (by simp) (by simp) (by simp)
        (by simp)
      have hx := hG.1 ⟨n, advices col, (0 : ℕ)⟩ x (List.mem_singleton.2 rfl)
      exact ⟨s1, l1, { hv with vars := snoc_of hv.vars hx }⟩
  | @newPoint P =>
    refine ⟨_, _, _, bind_of (region_of (WitnessPoint.point_run _ P n 0 (n + 1))) rfl,
      { he with points := snoc_of he.points rfl }, ?_, ?_⟩
    · exact Consistent.of_grid hA (reg := n) [(0, 0), (1, 0)] (by decide) rfl
    · intro G hG hv
      rw [List.append_nil] at hG ⊢
      obtain ⟨a', ops', h1', -, -, hc⟩ := WitnessPoint.point_spec hg hok.wp P n 0 (n + 1)
      cases (WitnessPoint.point_run _ P n 0 (n + 1)).symm.trans h1'
      obtain ⟨s1, r1⟩ := hc G hG
      have hen : ∀ x reg row, .enable x reg row ∈ (WitnessPoint.pointOps
          (configure advices lagrangeCoeffs fixedZ rangeCheck s).witnessPoint P n 0 :
            List (Op C S (ZMod p))) → x ∈ [0, 1].map (sel rangeCheck s) := by
        intro x reg row hm
        simp only [WitnessPoint.pointOps, List.mem_cons, Op.enable.injEq, reduceCtorEq,
          List.not_mem_nil, or_false] at hm
        rw [hm.1]
        exact List.mem_cons_self ..
      exact ⟨lift_wp hf hen s1, no_lookup hf hen (by decide),
        { hv with points := snoc_of hv.points r1 }⟩
  | @newConstant P =>
    obtain ⟨cfg, hcfg⟩ : ∃ cfg, cfg = (configure advices lagrangeCoeffs fixedZ rangeCheck s).witnessPoint :=
      ⟨_, rfl⟩
    obtain ⟨ops, hops⟩ : ∃ ops : List (Op C S (ZMod p)), ops = [.enable s.qPoint n (0 : ℕ),
      .advice ⟨n, advices 0, (0 : ℕ)⟩ (enc P).1, .const ⟨n, advices 0, (0 : ℕ)⟩ (enc P).1,
      .advice ⟨n, advices 1, (0 : ℕ)⟩ (enc P).2, .const ⟨n, advices 1, (0 : ℕ)⟩ (enc P).2] := ⟨_, rfl⟩
    refine ⟨{ e with points := e.points ++ [⟨⟨⟨n, advices 0, (0 : ℕ)⟩, (enc P).1⟩,
      ⟨⟨n, advices 1, (0 : ℕ)⟩, (enc P).2⟩⟩] }, n + 1, ops, by rw [hops]; rfl,
      { he with points := snoc_of he.points rfl }, ?_, ?_⟩
    · rw [hops]
      exact Consistent.of_grid hA (reg := n) [(0, 0), (1, 0)] (by decide) rfl
    · intro G hG hv
      have hx : G n (advices 0) (0 : ℕ) = (enc P).1 :=
        hG.1 ⟨n, advices 0, (0 : ℕ)⟩ _ (by simp [hops])
      have hy : G n (advices 1) (0 : ℕ) = (enc P).2 :=
        hG.1 ⟨n, advices 1, (0 : ℕ)⟩ _ (by simp [hops])
      have hh : enc P = (G n (advices 0) (0 : ℕ), G n (advices 1) (0 : ℕ)) := by rw [hx, hy]
      have hen : ∀ x reg row, .enable x reg row ∈ ops → x ∈ [0, 1].map (sel rangeCheck s) := by
        intro x reg row hm
        simp only [hops, List.mem_cons, Op.enable.injEq, reduceCtorEq,
          List.not_mem_nil, or_false] at hm
        rw [hm.1]
        exact List.mem_cons_self ..
      refine ⟨lift_wp hf hen ⟨?_, ?_, ?_, ?_⟩, no_lookup hf hen (by decide),
        { hv with points := snoc_of hv.points hh }⟩
      · intro g hg' reg row hm
        simp only [hops, List.mem_cons, Op.enable.injEq, reduceCtorEq, List.not_mem_nil, or_false,
          WitnessPoint.gates] at hm hg'
        rcases hg' with rfl | rfl
        · obtain ⟨-, rfl, rfl⟩ := hm
          refine (WitnessPoint.gate_point hg
            (configure advices lagrangeCoeffs fixedZ rangeCheck s).witnessPoint _).2 ⟨P, ?_⟩
          show enc P = (G reg (advices 0) (((0 : ℕ) : ℤ) + 0), G reg (advices 1) (((0 : ℕ) : ℤ) + 0))
          rw [add_zero]
          exact hh
        · exact absurd hm.1.symm hok.wp
      · intro a c hm; simp [hops] at hm
      · intro a c hm
        simp only [hops, List.mem_cons, Op.const.injEq, reduceCtorEq, List.not_mem_nil, or_false,
          false_or] at hm
        rcases hm with ⟨rfl, rfl⟩ | ⟨rfl, rfl⟩
        · exact hx
        · exact hy
      · intro a c hm; simp [hops] at hm
  | @newNonId P h =>
    obtain ⟨ops, hops⟩ : ∃ ops : List (Op C S (ZMod p)), ops = [.enable s.qPointNonId n (0 : ℕ),
      .advice ⟨n, advices 0, (0 : ℕ)⟩ (enc P).1, .advice ⟨n, advices 1, (0 : ℕ)⟩ (enc P).2] := ⟨_, rfl⟩
    have hrun : WitnessPoint.pointNonId
        (configure advices lagrangeCoeffs fixedZ rangeCheck s).witnessPoint P n 0 (n + 1)
        = some (⟨⟨⟨n, advices 0, (0 : ℕ)⟩, (enc P).1⟩, ⟨⟨n, advices 1, (0 : ℕ)⟩, (enc P).2⟩⟩, n + 1,
          ops) := by
      rw [hops]
      unfold WitnessPoint.pointNonId
      refine bind_of (a := ()) (n' := n + 1) (ops₁ := [.enable s.qPointNonId n (0 : ℕ)]) rfl ?_
      exact bind_of (a := ()) (n' := n + 1) (ops₁ := []) (if_pos h) rfl
    obtain ⟨a', ops', h1', -, -, hc⟩ := (WitnessPoint.pointNonId_spec hg hok.wp P n 0 (n + 1)).2 h
    have := hrun.symm.trans h1'
    simp only [Option.some.injEq, Prod.mk.injEq, true_and] at this
    obtain ⟨rfl, rfl⟩ := this
    refine ⟨_, _, _, bind_of (region_of hrun) rfl,
      { he with nonIds := snoc_of he.nonIds ⟨rfl, h⟩ }, ?_, ?_⟩
    · rw [hops]
      exact Consistent.of_grid hA (reg := n) [(0, 0), (1, 0)] (by decide) rfl
    · intro G hG hv
      rw [List.append_nil] at hG ⊢
      obtain ⟨s1, r1⟩ := hc G hG
      have hen : ∀ x reg row, .enable x reg row ∈ ops → x ∈ [0, 1].map (sel rangeCheck s) := by
        intro x reg row hm
        simp only [hops, List.mem_cons, Op.enable.injEq, reduceCtorEq,
          List.not_mem_nil, or_false] at hm
        rw [hm.1]
        exact List.mem_cons_of_mem _ (List.mem_cons_self ..)
      exact ⟨lift_wp hf hen s1, no_lookup hf hen (by decide),
        { hv with nonIds := snoc_of hv.nonIds ⟨r1, h⟩ }⟩
  | @constrainEqual x y P hx hy =>
    obtain ⟨ax, hax, vx⟩ := he.arg hx
    obtain ⟨ay, hay, vy⟩ := he.arg hy
    obtain ⟨ops, hops⟩ : ∃ ops : List (Op C S (ZMod p)), ops = [.equal ax.x.cell ay.x.cell,
      .equal ax.y.cell ay.y.cell] := ⟨_, rfl⟩
    refine ⟨e, n + 1, ops, ?_, he, ?_, ?_⟩
    · rw [hops]
      exact bind_of (unwrap_of hax n) (bind_of (unwrap_of hay n) rfl)
    · rw [hops]
      exact Consistent.of_cells List.nodup_nil
    · intro G hG hv
      have q1 := Holds.cells (hv.holds hax hx) vx
      have q2 := Holds.cells (hv.holds hay hy) vy
      have q3 : (ax.x.value, ax.y.value) = (ay.x.value, ay.y.value) := vx.symm.trans vy
      simp only [Prod.mk.injEq] at q3
      obtain ⟨s1, l1⟩ := hnone ops G (by simp [hops]) (by
        intro a c hm
        simp only [hops, List.mem_cons, Op.equal.injEq, List.not_mem_nil, or_false] at hm
        rcases hm with ⟨rfl, rfl⟩ | ⟨rfl, rfl⟩
        · rw [q1.1, q2.1, q3.1]
        · rw [q1.2, q2.2, q3.2]) (by simp [hops]) (by simp [hops])
      exact ⟨s1, l1, hv⟩
  | @extractP x P hx =>
    obtain ⟨ax, hax, vx⟩ := he.arg hx
    refine ⟨{ e with vars := e.vars ++ [ax.x] }, n, [], bind_of (unwrap_of hax n) rfl,
      { he with vars := snoc_of he.vars (congrArg Prod.fst vx).symm }, Consistent.nil, ?_⟩
    intro G hG hv
    obtain ⟨s1, l1⟩ := hnone [] G (by simp) (by simp) (by simp) (by simp)
    have q1 := Holds.cells (hv.holds hax hx) vx
    exact ⟨s1, l1, { hv with vars := snoc_of hv.vars (q1.1.trans (congrArg Prod.fst vx).symm) }⟩
  | @add x y P Q hx hy =>
    obtain ⟨ax, hax, vx⟩ := he.arg hx
    obtain ⟨ay, hay, vy⟩ := he.arg hy
    have hrun := Add.run (configure advices lagrangeCoeffs fixedZ rangeCheck s).add ax ay n 0 (n + 1)
    obtain ⟨vr, hc⟩ := Add.complete hg hrun vx vy
    refine ⟨_, n + 1, _, bind_of (unwrap_of hax n) (bind_of (unwrap_of hay n)
      (bind_of (region_of hrun) rfl)), { he with points := snoc_of he.points vr }, ?_, ?_⟩
    · exact Consistent.of_grid hA (reg := n) [(0, 0), (1, 0), (2, 0), (3, 0), (5, 0), (6, 0), (7, 0),
        (8, 0), (4, 0), (2, 1), (3, 1)] (by decide) rfl
    · intro G hG hv
      rw [List.nil_append, List.nil_append, List.append_nil] at hG ⊢
      obtain ⟨s1, r1⟩ := hc G hG (hv.holds hax hx) (hv.holds hay hy)
      have hen := add_uses (A := fun x => x ∈ [3].map (sel rangeCheck s)) (List.mem_cons_self ..)
        _ _ _ _ hrun
      exact ⟨lift_add hf hen s1, no_lookup hf hen (by decide),
        { hv with points := snoc_of hv.points r1 }⟩
  | @addIncomplete i j P Q hx hy h1 h2 =>
    obtain ⟨ax, hax, vx, hP0⟩ := get_of' he.nonIds hx
    obtain ⟨ay, hay, vy, hQ0⟩ := get_of' he.nonIds hy
    obtain ⟨r, ops, hrun, vr, hc⟩ := AddIncomplete.complete hg
      (cfg := (configure advices lagrangeCoeffs fixedZ rangeCheck s).addIncomplete) n 0 (n + 1) vx vy
      hP0 hQ0 h1 h2
    have hsum : P + Q ≠ 0 := fun e0 => h2 (eq_neg_of_add_eq_zero_left e0)
    refine ⟨_, n + 1, _, bind_of (unwrap_of hax n) (bind_of (unwrap_of hay n)
      (bind_of (region_of hrun) rfl)), { he with nonIds := snoc_of he.nonIds ⟨vr, hsum⟩ }, ?_, ?_⟩
    · rw [List.nil_append, List.nil_append, List.append_nil]
      have hex : ¬ AddIncomplete.Exceptional ax ay := by
        intro hex
        rw [AddIncomplete.run_none n 0 (n + 1) hex] at hrun
        cases hrun
      rw [AddIncomplete.run n 0 (n + 1) hex] at hrun
      cases hrun
      exact Consistent.of_grid hA (reg := n) [(0, 0), (1, 0), (2, 0), (3, 0), (2, 1), (3, 1)]
        (by decide) rfl
    · intro G hG hv
      rw [List.nil_append, List.nil_append, List.append_nil] at hG ⊢
      obtain ⟨s1, r1⟩ := hc G hG (same hv.nonIds hax hx).1 (same hv.nonIds hay hy).1
      have hen := addIncomplete_uses (A := fun x => x ∈ [2].map (sel rangeCheck s))
        (List.mem_cons_self ..) _ _ _ _ hrun
      exact ⟨lift_addIncomplete hf hen s1, no_lookup hf hen (by decide),
        { hv with nonIds := snoc_of hv.nonIds ⟨r1, hsum⟩ }⟩
  | @mulSignPos i j P hx hs =>
    exact hsign (neg := false) hx hs
  | @mulSignNeg i j P hx hs =>
    exact hsign (neg := true) hx hs
  | @scalarVarFromBase i a h =>
    obtain ⟨ax, hax, vx⟩ := get_of' he.vars h
    refine ⟨{ e with scalarVars := e.scalarVars ++ [ax] }, n, [], bind_of (unwrap_of hax n) rfl,
      { he with scalarVars := snoc_of he.scalarVars vx }, Consistent.nil, ?_⟩
    intro G hG hv
    obtain ⟨s1, l1⟩ := hnone [] G (by simp) (by simp) (by simp) (by simp)
    exact ⟨s1, l1, { hv with scalarVars := snoc_of hv.scalarVars (same hv.vars hax h) }⟩
  | @mul i j P k hx hk =>
    obtain ⟨ax, hax, vx, hP0⟩ := get_of' he.nonIds hx
    obtain ⟨ak, hak, vk⟩ := get_of' he.scalarVars hk
    subst vk
    obtain ⟨r, ops, hrun, vr, hcon, hen, hc⟩ := mul_complete hp254 hpT hg hf hcv.prime fix (k := ak) n vx
      hP0 (hcv.order P)
    refine ⟨_, n + 4, _, bind_of (unwrap_of hax n) (bind_of (unwrap_of hak n) (bind_of hrun rfl)),
      { he with points := snoc_of he.points vr, scalarVars := snoc_of he.scalarVars rfl }, ?_, ?_⟩
    · rw [List.nil_append, List.nil_append, List.append_nil]
      exact hcon
    · intro G hG hv
      rw [List.nil_append, List.nil_append, List.append_nil] at hG ⊢
      obtain ⟨s1, l1, r1⟩ := hc G hG (same hv.nonIds hax hx).1 (same hv.scalarVars hak hk)
      exact ⟨lift_mul hf hen s1, l1, { hv with
        points := snoc_of hv.points r1
        scalarVars := snoc_of hv.scalarVars (same hv.scalarVars hak hk) }⟩
  | @newScalarFixed x =>
    refine ⟨{ e with scalarsFixed := e.scalarsFixed ++ [⟨x, none⟩] }, n, [], rfl,
      { he with scalarsFixed := snoc_of he.scalarsFixed ⟨rfl, fun _ => rfl⟩ }, Consistent.nil, ?_⟩
    intro G hG hv
    obtain ⟨s1, l1⟩ := hnone [] G (by simp) (by simp) (by simp) (by simp)
    refine ⟨s1, l1, { hv with scalarsFixed := ?_ }⟩
    show List.Forall₂ _ _ (List.map used _)
    rw [List.map_append]
    exact snoc_of hv.scalarsFixed rfl
  | @mulFixed base j k hs =>
    obtain ⟨ak, hak, vk, hw⟩ := get_of' he.scalarsFixed hs
    dsimp only at vk
    subst vk
    obtain ⟨r, ws, ops, hrun, vr, hcon, hen', hc⟩ := FullWidth.assign_complete hg hb.1 hb.2 (hq0 _)
      hp8.le hq8 hq255 hok.full hok.fullDistinct hok.fullSel ak.value n
    refine ⟨_, n + 1 + 1, _, bind_of (unwrap_of hak n) (bind_of (assert_of (hw rfl) n)
      (bind_of hrun rfl)),
      { he with
        points := snoc_of he.points vr
        scalarsFixed := snoc_of he.scalarsFixed ⟨rfl, fun h => by cases h⟩ }, ?_, ?_⟩
    · rw [List.nil_append, List.nil_append, List.append_nil]
      exact hcon
    · intro G hG hv
      rw [List.nil_append, List.nil_append, List.append_nil] at hG ⊢
      obtain ⟨s1, r1, w1⟩ := hc G hG
      have hen : ∀ x reg row, .enable x reg row ∈ ops → x ∈ [14, 13, 3, 2].map (sel rangeCheck s) := by
        intro x reg row hm
        rcases hen' x reg row hm with rfl | h
        · exact List.mem_cons_self ..
        · exact List.mem_cons_of_mem _ h
      refine ⟨lift_full hf hen s1, no_lookup hf hen (by decide), { hv with
        points := snoc_of hv.points r1
        scalarsFixed := ?_ }⟩
      show List.Forall₂ _ _ (List.map used _)
      rw [List.map_append]
      refine snoc_of hv.scalarsFixed ?_
      simp only [used, Option.map_some, if_true, w1]
      rfl
  | @newScalarFixedShort i j m t hm hs =>
    obtain ⟨ax, hax, vx⟩ := get_of' he.vars hm
    obtain ⟨ay, hay, vy⟩ := get_of' he.vars hs
    refine ⟨{ e with scalarsShort := e.scalarsShort ++ [⟨ax, ay, none⟩] }, n, [],
      bind_of (unwrap_of hax n) (bind_of (unwrap_of hay n) rfl),
      { he with scalarsShort := snoc_of he.scalarsShort ⟨vx, vy, fun _ => rfl⟩ }, Consistent.nil, ?_⟩
    intro G hG hv
    obtain ⟨s1, l1⟩ := hnone [] G (by simp) (by simp) (by simp) (by simp)
    refine ⟨s1, l1, { hv with scalarsShort := ?_ }⟩
    show List.Forall₂ _ _ (List.map Prod.fst _)
    rw [List.map_append]
    exact snoc_of hv.scalarsShort ⟨same hv.vars hax hm, same hv.vars hay hs⟩
  | @mulFixedShortPos base j m hs hm =>
    exact hshort (neg := false) hb hs hm
  | @mulFixedShortNeg base j m hs hm =>
    exact hshort (neg := true) hb hs hm
  | @mulFixedBaseField base i a h =>
    obtain ⟨ax, hax, vx⟩ := get_of' he.vars h
    subst vx
    obtain ⟨r, ops, hrun, vr, hcon, hc⟩ := BaseFieldElem.assign_complete hg hcv.field hb.1 hb.2 (hq0 _)
      hq8 hok.base hok.baseDistinct ax n
    refine ⟨_, n + 4, _, bind_of (unwrap_of hax n) (bind_of hrun rfl),
      { he with points := snoc_of he.points vr }, ?_, ?_⟩
    · rw [List.nil_append, List.append_nil]
      exact hcon
    · intro G hG hv
      rw [List.nil_append, List.append_nil] at hG ⊢
      obtain ⟨s1, l1, r1⟩ := hc G hG (same hv.vars hax h)
      have hen := base_uses (A := fun x => x ∈ [16, 13, 3, 2, 17, 18].map (sel rangeCheck s))
        (cfg := (configure advices lagrangeCoeffs fixedZ rangeCheck s).mulFixedBaseField)
        (List.mem_cons_self ..) (fun t ht => by
          have : t ∈ [13, 3, 2].map (sel rangeCheck s) := ht
          exact List.map_subset _ (by decide) this)
        (List.mem_map_of_mem (a := (17 : Fin 20)) (by decide))
        (List.mem_map_of_mem (a := (18 : Fin 20)) (by decide)) _ _ _ _ hrun
      exact ⟨lift_base hf hen s1, l1, { hv with points := snoc_of hv.points r1 }⟩

/-- Lookups of parts in different regions. -/
theorem lookup_append {α β : Type} {f : M C S (ZMod p) α} {g : M C S (ZMod p) β} {n m n' : ℕ} {a : α}
    {b : β} {o o' : List (Op C S (ZMod p))} (hf : Local f) (hg : Local g)
    (h1 : f n = some (a, m, o)) (h2 : g m = some (b, n', o')) {l : LookupArg C S (ZMod p)}
    {G : Grid C (ZMod p)} (s1 : ∀ reg, SatLookup l G o reg) (s2 : ∀ reg, SatLookup l G o' reg)
    (reg : ℕ) : SatLookup l G (o ++ o') reg := by
  intro row
  by_cases hr : reg < m
  · have : selectors (F := ZMod p) (o ++ o') reg row = selectors o reg row := by
      funext t
      unfold selectors
      by_cases hm : .enable t reg row ∈ o
      · rw [if_pos hm, if_pos (List.mem_append_left _ hm)]
      · refine (if_neg ?_).trans (if_neg hm).symm
        intro h
        rcases List.mem_append.1 h with h | h
        · exact hm h
        · have := ((hg _ _ _ _ h2).2 _ h reg rfl).1
          omega
    rw [this]
    exact s1 reg row
  · have : selectors (F := ZMod p) (o ++ o') reg row = selectors o' reg row := by
      funext t
      unfold selectors
      by_cases hm : .enable t reg row ∈ o'
      · rw [if_pos hm, if_pos (List.mem_append_right _ hm)]
      · refine (if_neg ?_).trans (if_neg hm).symm
        intro h
        rcases List.mem_append.1 h with h | h
        · have := ((hf _ _ _ _ h1).2 _ h reg rfl).2
          omega
        · exact hm h
    rw [this]
    exact s2 reg row

/-- A list of calls with the prover's values. -/
theorem run_complete (hcv : Curve b) (hqo : q = Mul.order)
    (hf : Fresh advices lagrangeCoeffs fixedZ rangeCheck s) (fix : Bool) {cs : List (Call b q)}
    (hb : ∀ c ∈ cs, c.BaseOk) {v v' : HVals b q} (h : HSteps v cs v') {e : Env C p q}
    (he : Matches e v) (n : ℕ) :
    ∃ e' n' ops, run fix (configure advices lagrangeCoeffs fixedZ rangeCheck s) cs e n
        = some (e', n', ops) ∧
      Done (configure advices lagrangeCoeffs fixedZ rangeCheck s) e e' v v' ops := by
  induction h generalizing e n with
  | nil =>
    exact ⟨e, n, [], rfl, he, Consistent.nil, fun G _ hv => ⟨Sat.nil _ _,
      no_lookup hf (I := []) (by simp) (by simp), hv⟩⟩
  | @cons v v1 v2 c cs h hs ih =>
    obtain ⟨e1, n1, o1, r1, d1⟩ := call_complete hcv hqo hf fix (hb c (by simp)) h he n
    obtain ⟨e2, n2, o2, r2, d2⟩ := ih (fun c hc => hb c (by simp [hc])) d1.fits n1
    have l1 := call_local fix (configure advices lagrangeCoeffs fixedZ rangeCheck s) e c
    have l2 := run_local fix (configure advices lagrangeCoeffs fixedZ rangeCheck s) cs e1
    refine ⟨e2, n2, o1 ++ o2, bind_of r1 r2, d2.fits,
      Consistent.local l1 l2 r1 r2 d1.consistent d2.consistent, fun G hG hv => ?_⟩
    obtain ⟨s1, k1, hv1⟩ := d1.sat G hG.left hv
    obtain ⟨s2, k2, hv2⟩ := d2.sat G hG.right hv1
    exact ⟨s1.append s2, lookup_append l1 l2 r1 r2 k1 k2, hv2⟩

/-- **C79**, completeness: a circuit made of any calls of the gadget whose operands are in the domains
of the operations is laid out without an error, assigns no cell two values, and the assignment the
prover computes meets all the gates, copy constraints and lookups and has in the cells of the handles
the values that the calls mean. -/
theorem circuit_complete (hcv : Curve b) (hqo : q = Mul.order)
    (hf : Fresh advices lagrangeCoeffs fixedZ rangeCheck s) (fix : Bool) {cs : List (Call b q)}
    (hb : ∀ c ∈ cs, c.BaseOk) {v : HVals b q} (h : HSteps {} cs v) :
    ∃ e n ops, run fix (configure advices lagrangeCoeffs fixedZ rangeCheck s) cs {} 0
        = some (e, n, ops) ∧ (∃ G : Grid C (ZMod p), Honest G ops) ∧
      ∀ G, Honest G ops → Sat (gates b (configure advices lagrangeCoeffs fixedZ rangeCheck s)) G ops ∧
        (∀ reg, SatLookup (LookupRange.lookup 10 rangeCheck) G ops reg) ∧ Agrees G e v.vals := by
  obtain ⟨e, n, ops, h1, h2⟩ := run_complete hcv hqo hf fix hb h (Matches.empty (C := C)) 0
  obtain ⟨G, hG, -⟩ := h2.consistent.exists_honest fun _ _ _ => 0
  exact ⟨e, n, ops, h1, ⟨G, hG⟩, fun G hG => h2.sat G hG (Agrees.empty G)⟩

end

end Verif.EccApi
