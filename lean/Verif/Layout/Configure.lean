import Verif.Layout.Poly

/-!
# A constraint system with given gates and lookups

For gates and lookups made of queries by ring operations there is a constraint system, reached by the
calls of the API, that has exactly these gates and lookups.  It queries every column at every
rotation in a range, which a circuit would not do, but the statement is that of existence.
-/

namespace Verif.Layout

open Verif.Cs (Cs Column Kind Reach Extends Inv reach_inv)
open Verif.Expr
open Verif.ExprEval
open Verif.Mock (cellVal)
open Verif.Region (Gates LookupArg)

variable {C S F : Type} [Field F]

/-- A constraint system with these numbers of columns and selectors, all queried at all rotations up
to `R`, with gates and lookups of a degree up to `D`. -/
structure Ready (na nf ni ns R D : ℕ) (simple : ℕ → Bool) (cs : Cs F) : Prop where
  reach : Reach cs
  numAdvice : cs.numAdvice = na
  numFixed : cs.numFixed = nf
  numInstance : cs.numInstance = ni
  numSelectors : cs.numSelectors = ns
  advice : ∀ c r, (c, r) ∈ cs.adviceQueries ↔ c < na ∧ r.natAbs ≤ R
  fixed : ∀ c r, (c, r) ∈ cs.fixedQueries ↔ c < nf ∧ r = 0
  inst : ∀ c r, (c, r) ∈ cs.instanceQueries ↔ c < ni ∧ r.natAbs ≤ R
  built : ∀ g ∈ cs.gates, ∀ e ∈ g, Built e
  flagG : ∀ g ∈ cs.gates, ∀ e ∈ g, ∀ s ∈ e.sels, s.simple = simple s.index
  flagL : ∀ l ∈ cs.lookups, ∀ e ∈ l.input, ∀ s ∈ e.sels, s.simple = simple s.index
  degG : ∀ g ∈ cs.gates, ∀ e ∈ g, e.degree ≤ D + 1
  degL : ∀ l ∈ cs.lookups, (∀ e ∈ l.input, e.degree ≤ D + 1) ∧ ∀ e ∈ l.table, e.degree ≤ 1
  min : cs.minimumDegree = none

theorem listMax?_le {l : List ℕ} {d b : ℕ} (h : ∀ x ∈ l, x ≤ b) (hd : d ≤ b) :
    (Cs.listMax? l).getD d ≤ b := by
  have key : ∀ (l : List ℕ) (a : ℕ), a ≤ b → (∀ x ∈ l, x ≤ b) → l.foldl max a ≤ b := by
    intro l
    induction l with
    | nil => intro a ha _; exact ha
    | cons x l ih =>
      intro a ha h
      exact ih _ (max_le ha (h x (by simp))) fun y hy => h y (by simp [hy])
  rcases l with _ | ⟨a, l⟩
  · exact hd
  · exact key l a (h a (by simp)) fun x hx => h x (by simp [hx])

theorem foldl_degree_le {b : ℕ} (l : List (Expr F)) : ∀ a : ℕ, a ≤ b → (∀ e ∈ l, e.degree ≤ b) →
    l.foldl (fun d e => max d e.degree) a ≤ b := by
  induction l with
  | nil => intro a ha _; exact ha
  | cons x l ih =>
    intro a ha h
    exact ih _ (max_le ha (h x (by simp))) fun y hy => h y (by simp [hy])

theorem Ready.degree {na nf ni ns R D : ℕ} {simple : ℕ → Bool} {cs : Cs F}
    (h : Ready na nf ni ns R D simple cs) : cs.degree ≤ D + 4 := by
  unfold Cs.degree
  rw [h.min]
  refine max_le (max_le (max_le (by simp [Cs.permRequiredDegree]) (listMax?_le ?_ (by omega)))
    (listMax?_le ?_ (by omega))) (by simp)
  · intro x hx
    obtain ⟨l, hl, rfl⟩ := List.mem_map.1 hx
    have h1 := foldl_degree_le (b := D + 1) l.input 1 (by omega) (h.degL l hl).1
    have h2 := foldl_degree_le (b := 1) l.table 1 (by omega) (h.degL l hl).2
    simp only [Cs.Lookup.requiredDegree]
    omega
  · intro x hx
    obtain ⟨g, hg, hx⟩ := List.mem_flatMap.1 hx
    obtain ⟨e, he, rfl⟩ := List.mem_map.1 hx
    exact (h.degG g hg e he).trans (by omega)

/-- Such a constraint system is one the theorems on the proof system are about. -/
theorem Ready.configured {na nf ni ns R D n : ℕ} {simple : ℕ → Bool} {cs : Cs F}
    (h : Ready na nf ni ns R D simple cs) (hn : R ≤ n)
    (hc : ∀ i : ℕ, 0 < i → i ≤ D + 4 → (i : F) ≠ 0) : Link.Configured cs n simple where
  reach := h.reach
  built := h.built
  fixed := fun q hq => by rw [h.numFixed]; exact ((h.fixed q.1 q.2).1 hq).1
  inst := fun q hq => by rw [h.numInstance]; exact ((h.inst q.1 q.2).1 hq).1
  adviceRot := fun q hq => ((h.advice q.1 q.2).1 hq).2.trans hn
  instRot := fun q hq => ((h.inst q.1 q.2).1 hq).2.trans hn
  flagG := h.flagG
  flagL := h.flagL
  char := fun i hi hd => hc i hi (hd.trans h.degree)

/-! ### Columns and queries -/

theorem reach_columns (na nf ni ns : ℕ) (simple : ℕ → Bool) :
    Reach ({ numAdvice := na, numAdviceQueries := List.replicate na 0, numFixed := nf,
             numInstance := ni, numSelectors := ns } : Cs F) := by
  have h1 : ∀ na, Reach ({ numAdvice := na, numAdviceQueries := List.replicate na 0 } : Cs F) := by
    intro na
    induction na with
    | zero => exact Reach.init
    | succ k ih =>
      have := Reach.adviceColumn ih
      simpa [Cs.adviceColumn, List.replicate_succ'] using this
  have h2 : ∀ nf, Reach
      ({ numAdvice := na, numAdviceQueries := List.replicate na 0, numFixed := nf } : Cs F) := by
    intro nf
    induction nf with
    | zero => exact h1 na
    | succ k ih => exact Reach.fixedColumn ih
  have h3 : ∀ ni, Reach
      ({ numAdvice := na, numAdviceQueries := List.replicate na 0, numFixed := nf,
         numInstance := ni } : Cs F) := by
    intro ni
    induction ni with
    | zero => exact h2 nf
    | succ k ih => exact Reach.instanceColumn ih
  induction ns with
  | zero => exact h3 ni
  | succ k ih => exact Reach.selector (simple k) ih

theorem query_advice (l : List (ℕ × ℤ)) : ∀ cs : Cs F, Reach cs → (∀ q ∈ l, q.1 < cs.numAdvice) →
    ∃ a b, Reach { cs with adviceQueries := a, numAdviceQueries := b } ∧
      ∀ q, q ∈ a ↔ q ∈ cs.adviceQueries ∨ q ∈ l := by
  induction l with
  | nil => intro cs h _; exact ⟨_, _, h, by simp⟩
  | cons x l ih =>
    intro cs h hl
    have hx : x.1 < cs.numAdviceQueries.length := by
      rw [(reach_inv h).count]; exact hl x (by simp)
    rcases hf : Cs.findQuery (x.1, x.2) 0 cs.adviceQueries with _ | i
    · have hq : cs.queryAdvice x.1 x.2 = some (.advice ⟨cs.adviceQueries.length, x.1, x.2⟩,
          { cs with
            adviceQueries := cs.adviceQueries ++ [(x.1, x.2)]
            numAdviceQueries :=
              cs.numAdviceQueries.set x.1 (cs.numAdviceQueries[x.1] + 1) }) := by
        rw [Cs.queryAdvice, Cs.queryAdviceIndex, hf]
        simp only [hx, dite_true, Option.map_some]
      obtain ⟨a, b, h1, h2⟩ := ih _ (Reach.queryAdvice h hq) fun q hq => hl q (by simp [hq])
      refine ⟨a, b, h1, fun q => ?_⟩
      rw [h2]
      simp only [List.mem_append, List.mem_singleton, List.mem_cons]
      tauto
    · have hm := List.mem_of_getElem? (Cs.findQuery_some hf)
      obtain ⟨a, b, h1, h2⟩ := ih cs h fun q hq => hl q (by simp [hq])
      refine ⟨a, b, h1, fun q => ?_⟩
      rw [h2]
      simp only [List.mem_cons]
      constructor
      · tauto
      · rintro (hq | rfl | hq)
        · exact .inl hq
        · exact .inl hm
        · exact .inr hq

theorem query_fixed (l : List ℕ) : ∀ cs : Cs F, Reach cs →
    ∃ a, Reach { cs with fixedQueries := a } ∧
      ∀ q, q ∈ a ↔ q ∈ cs.fixedQueries ∨ q.1 ∈ l ∧ q.2 = 0 := by
  induction l with
  | nil => intro cs h; exact ⟨_, h, by simp⟩
  | cons x l ih =>
    intro cs h
    rcases hf : Cs.findQuery (x, 0) 0 cs.fixedQueries with _ | i
    · have h0 := Reach.queryFixed x h
      have hq : (cs.queryFixed x).2 = { cs with fixedQueries := cs.fixedQueries ++ [(x, 0)] } := by
        rw [Cs.queryFixed, Cs.queryFixedIndex, hf]
      rw [hq] at h0
      obtain ⟨a, h1, h2⟩ := ih _ h0
      refine ⟨a, h1, fun q => ?_⟩
      rw [h2]
      obtain ⟨q1, q2⟩ := q
      simp only [List.mem_append, List.mem_singleton, List.mem_cons, Prod.mk.injEq]
      tauto
    · have hm := List.mem_of_getElem? (Cs.findQuery_some hf)
      obtain ⟨a, h1, h2⟩ := ih cs h
      refine ⟨a, h1, fun q => ?_⟩
      rw [h2]
      obtain ⟨q1, q2⟩ := q
      simp only [List.mem_cons]
      constructor
      · tauto
      · rintro (hq | ⟨rfl | hq, rfl⟩)
        · exact .inl hq
        · exact .inl hm
        · exact .inr ⟨hq, rfl⟩

theorem query_instance (l : List (ℕ × ℤ)) : ∀ cs : Cs F, Reach cs →
    ∃ a, Reach { cs with instanceQueries := a } ∧
      ∀ q, q ∈ a ↔ q ∈ cs.instanceQueries ∨ q ∈ l := by
  induction l with
  | nil => intro cs h; exact ⟨_, h, by simp⟩
  | cons x l ih =>
    intro cs h
    rcases hf : Cs.findQuery (x.1, x.2) 0 cs.instanceQueries with _ | i
    · have h0 := Reach.queryInstance x.1 x.2 h
      have hq : (cs.queryInstance x.1 x.2).2 =
          { cs with instanceQueries := cs.instanceQueries ++ [(x.1, x.2)] } := by
        rw [Cs.queryInstance, Cs.queryInstanceIndex, hf]
      rw [hq] at h0
      obtain ⟨a, h1, h2⟩ := ih _ h0
      refine ⟨a, h1, fun q => ?_⟩
      rw [h2]
      simp only [List.mem_append, List.mem_singleton, List.mem_cons]
      tauto
    · have hm := List.mem_of_getElem? (Cs.findQuery_some hf)
      obtain ⟨a, h1, h2⟩ := ih cs h
      refine ⟨a, h1, fun q => ?_⟩
      rw [h2]
      simp only [List.mem_cons]
      constructor
      · tauto
      · rintro (hq | rfl | hq)
        · exact .inl hq
        · exact .inl hm
        · exact .inr hq

/-- The rotations up to `R`. -/
def rotations (R : ℕ) : List ℤ := (List.range (2 * R + 1)).map fun i : ℕ => (i : ℤ) - R

theorem mem_rotations {R : ℕ} {r : ℤ} : r ∈ rotations R ↔ r.natAbs ≤ R := by
  simp only [rotations, List.mem_map, List.mem_range]
  constructor
  · rintro ⟨i, hi, rfl⟩
    omega
  · intro h
    exact ⟨(r + R).toNat, by omega, by omega⟩

theorem exists_ready (na nf ni ns R D : ℕ) (simple : ℕ → Bool) :
    ∃ cs : Cs F, Ready na nf ni ns R D simple cs ∧ cs.gates = [] ∧ cs.lookups = [] ∧
      cs.permutation = [] ∧ cs.constants = [] := by
  obtain ⟨a, b, h1, ha⟩ := query_advice ((List.range na).flatMap fun c => (rotations R).map (c, ·)) _
    (reach_columns (F := F) na nf ni ns simple) (by
      intro q hq
      simp only [List.mem_flatMap, List.mem_range, List.mem_map] at hq
      obtain ⟨c, hc, r, -, rfl⟩ := hq
      exact hc)
  obtain ⟨f, h2, hf⟩ := query_fixed (List.range nf) _ h1
  obtain ⟨i, h3, hi⟩ := query_instance ((List.range ni).flatMap fun c => (rotations R).map (c, ·)) _ h2
  refine ⟨_, ⟨h3, rfl, rfl, rfl, rfl, ?_, ?_, ?_, by simp, by simp, by simp,
    by simp, by simp, rfl⟩, rfl, rfl, rfl, rfl⟩
  · intro c r
    simp [ha, mem_rotations]
  · intro c r
    simp [hf]
  · intro c r
    simp [hi, mem_rotations]

/-! ### Expressions -/

/-- The queries of a `Ready` constraint system. -/
def Allowed (na nf ni R : ℕ) (ι : C → Column) (c : C) (rot : ℤ) : Prop :=
  match ι c with
  | ⟨.advice, i⟩ => i < na ∧ rot.natAbs ≤ R
  | ⟨.fixed, i⟩ => i < nf ∧ rot = 0
  | ⟨.inst, i⟩ => i < ni ∧ rot.natAbs ≤ R

/-- Functions of selectors and queried cells, of a degree at most the number: those of lookups. -/
inductive LPoly (P : S → Prop) (Q : C → ℤ → Prop) : ℕ → ((S → F) → (C → ℤ → F) → F) → Prop
  | const (v : F) : LPoly P Q 0 fun _ _ => v
  | sel {s} : P s → LPoly P Q 1 fun f _ => f s
  | query {c rot} : Q c rot → LPoly P Q 1 fun _ q => q c rot
  | add {d e f g} : LPoly P Q d f → LPoly P Q e g → LPoly P Q (max d e) fun s q => f s q + g s q
  | sub {d e f g} : LPoly P Q d f → LPoly P Q e g → LPoly P Q (max d e) fun s q => f s q - g s q
  | mul {d e f g} : LPoly P Q d f → LPoly P Q e g → LPoly P Q (d + e) fun s q => f s q * g s q
  | mono {d e f} : d ≤ e → LPoly P Q d f → LPoly P Q e f

variable {na nf ni ns R D d : ℕ} {simple : ℕ → Bool} {cs : Cs F} {ι : C → Column} {σ : S → ℕ}

theorem lpoly_expr (h : Ready na nf ni ns R D simple cs) {P : S → Prop}
    (hP : ∀ s, P s → σ s < ns ∧ simple (σ s) = false) {f : (S → F) → (C → ℤ → F) → F}
    (hf : LPoly P (Allowed na nf ni R ι) d f) :
    ∃ e : Expr F, cs.Covers e ∧ Built e ∧ (∀ s ∈ e.sels, s.simple = false ∧ simple s.index = false) ∧
      e.degree ≤ d ∧ ∀ n sel (t : Cols F) j, e.value id (rowEnv n sel t j) =
        f (fun s => if sel (σ s) j then 1 else 0) fun c rot => cellVal t (ι c) (rotRow n j rot) := by
  have hsimple : ∀ e : Expr F, (∀ s ∈ e.sels, s.simple = false ∧ simple s.index = false) →
      e.containsSimple = false := by
    intro e he
    rw [← Bool.not_eq_true, containsSimple_iff]
    rintro ⟨s, hs, h⟩
    rw [(he s hs).1] at h
    cases h
  induction hf with
  | const v => exact ⟨.constant v, trivial, .constant v, by simp [Expr.sels], by rfl, fun _ _ _ _ => rfl⟩
  | @sel s hs =>
    refine ⟨.selector ⟨σ s, false⟩, ?_, .selector _, ?_, by rfl, fun _ _ _ _ => rfl⟩
    · show σ s < cs.numSelectors
      rw [h.numSelectors]; exact (hP s hs).1
    · intro s' hs'
      rw [Expr.sels, List.mem_singleton] at hs'
      subst hs'
      exact ⟨rfl, (hP s hs).2⟩
  | @query c rot hq =>
    unfold Allowed at hq
    rcases hc : ι c with ⟨_ | _ | _, i⟩ <;> rw [hc] at hq
    · obtain ⟨k, hk⟩ := List.getElem?_of_mem ((h.advice i rot).2 hq)
      exact ⟨.advice ⟨k, i, rot⟩, hk, .advice _, by simp [Expr.sels], by rfl, fun _ _ _ _ => by
        simp only [Expr.value, rowEnv, hc]; rfl⟩
    · obtain ⟨k, hk⟩ := List.getElem?_of_mem ((h.fixed i rot).2 hq)
      exact ⟨.fixed ⟨k, i, rot⟩, hk, .fixed _, by simp [Expr.sels], by rfl, fun _ _ _ _ => by
        simp only [Expr.value, rowEnv, hc]; rfl⟩
    · obtain ⟨k, hk⟩ := List.getElem?_of_mem ((h.inst i rot).2 hq)
      exact ⟨.inst ⟨k, i, rot⟩, hk, .inst _, by simp [Expr.sels], by rfl, fun _ _ _ _ => by
        simp only [Expr.value, rowEnv, hc]; rfl⟩
  | add _ _ ih1 ih2 =>
    obtain ⟨a, a1, a2, a3, a5, a4⟩ := ih1
    obtain ⟨b, b1, b2, b3, b5, b4⟩ := ih2
    refine ⟨.sum a b, ⟨a1, b1⟩, .add a2 b2 (by simp [Expr.add, hsimple _ a3, hsimple _ b3]), ?_,
      max_le_max a5 b5, ?_⟩
    · intro s hs
      rcases List.mem_append.1 hs with hs | hs
      exacts [a3 s hs, b3 s hs]
    · intro n sel t j
      rw [Expr.value, a4, b4]
  | sub _ _ ih1 ih2 =>
    obtain ⟨a, a1, a2, a3, a5, a4⟩ := ih1
    obtain ⟨b, b1, b2, b3, b5, b4⟩ := ih2
    refine ⟨.sum a (.negated b), ⟨a1, b1⟩,
      .sub a2 b2 (by simp [Expr.sub, Expr.neg, hsimple _ a3, hsimple _ b3]), ?_,
      max_le_max a5 b5, ?_⟩
    · intro s hs
      rcases List.mem_append.1 hs with hs | hs
      exacts [a3 s hs, b3 s hs]
    · intro n sel t j
      simp only [Expr.value, a4, b4, sub_eq_add_neg]
  | mul _ _ ih1 ih2 =>
    obtain ⟨a, a1, a2, a3, a5, a4⟩ := ih1
    obtain ⟨b, b1, b2, b3, b5, b4⟩ := ih2
    refine ⟨.product a b, ⟨a1, b1⟩, .mul a2 b2 (by simp [Expr.mul, hsimple _ a3]), ?_,
      Nat.add_le_add a5 b5, ?_⟩
    · intro s hs
      rcases List.mem_append.1 hs with hs | hs
      exacts [a3 s hs, b3 s hs]
    · intro n sel t j
      rw [Expr.value, a4, b4]
  | mono h _ ih =>
    obtain ⟨a, a1, a2, a3, a5, a4⟩ := ih
    exact ⟨a, a1, a2, a3, a5.trans h, a4⟩

theorem Poly.lpoly {Q : C → ℤ → Prop} {f : (C → ℤ → F) → F} (h : Poly Q d f) :
    LPoly (fun _ : S => False) Q d fun _ q => f q := by
  induction h with
  | const v => exact .const v
  | query h => exact .query h
  | neg _ ih => simpa using (LPoly.const 0).sub ih
  | add _ _ ih1 ih2 => exact ih1.add ih2
  | sub _ _ ih1 ih2 => exact ih1.sub ih2
  | mul _ _ ih1 ih2 => exact ih1.mul ih2
  | mono h _ ih => exact ih.mono h

/-- The expressions of a gate, with its selector. -/
theorem polys_expr (h : Ready na nf ni ns R D simple cs) {g : S × ((C → ℤ → F) → List F)}
    (hs : σ g.1 < ns) (hg : Polys (Allowed na nf ni R ι) D g.2) :
    ∃ es : List (Expr F), es ≠ [] ∧ (∀ e ∈ es, cs.Covers e ∧ Built e ∧
      (∀ s ∈ e.sels, s.simple = simple s.index) ∧ e.degree ≤ D + 1) ∧ GateIs ι σ es g := by
  obtain ⟨l, h1, h2, h3⟩ := hg
  have : ∀ f ∈ l, ∃ e : Expr F, (cs.Covers e ∧ Built e ∧ (∀ s ∈ e.sels, s.simple = simple s.index) ∧
      e.degree ≤ D + 1) ∧ ∀ n sel (t : Cols F) j, e.value id (rowEnv n sel t j) = (if sel (σ g.1) j then 1 else 0) *
        f fun c rot => cellVal t (ι c) (rotRow n j rot) := by
    intro f hf
    obtain ⟨e, e1, e2, e3, e5, e4⟩ := lpoly_expr (σ := σ) h (P := fun _ : S => False)
      (fun s hs => hs.elim) (h2 f hf).lpoly
    have hsimple : e.containsSimple = false := by
      rw [← Bool.not_eq_true, containsSimple_iff]
      rintro ⟨s, hs, h⟩
      rw [(e3 s hs).1] at h
      cases h
    refine ⟨.product (.selector ⟨σ g.1, simple (σ g.1)⟩) e, ⟨⟨?_, e1⟩,
      .mul (.selector ⟨σ g.1, simple (σ g.1)⟩) e2 (by simp [Expr.mul, hsimple]), ?_,
      by simp only [Expr.degree]; omega⟩, ?_⟩
    · show σ g.1 < cs.numSelectors
      rw [h.numSelectors]; exact hs
    · intro s hs
      rcases List.mem_append.1 hs with hs | hs
      · rw [Expr.sels, List.mem_singleton] at hs
        subst hs
        rfl
      · rw [(e3 s hs).1, (e3 s hs).2]
    · intro n sel t j
      rw [Expr.value, e4]
      rfl
  have he : ∃ e : ((C → ℤ → F) → F) → Expr F, ∀ f ∈ l, (cs.Covers (e f) ∧ Built (e f) ∧
      (∀ s ∈ (e f).sels, s.simple = simple s.index) ∧ (e f).degree ≤ D + 1) ∧ ∀ n sel (t : Cols F) j,
      (e f).value id (rowEnv n sel t j) = (if sel (σ g.1) j then 1 else 0) *
        f fun c rot => cellVal t (ι c) (rotRow n j rot) := by
    classical
    have hne : Nonempty (Expr F) := ⟨.constant 0⟩
    choose! e he using this
    exact ⟨e, he⟩
  obtain ⟨e, he⟩ := he
  refine ⟨l.map e, by simpa using h1, ?_, ?_⟩
  · intro x hx
    obtain ⟨f, hf, rfl⟩ := List.mem_map.1 hx
    exact (he f hf).1
  · intro n sel t j
    rw [h3, List.map_map, List.map_map]
    exact List.map_congr_left fun f hf => (he f hf).2 n sel t j

/-! ### Gates, lookups and equality -/

theorem forall₂_right {α β : Type*} {r : α → β → Prop} {l : List α} {m : List β}
    (h : List.Forall₂ r l m) {b : β} (hb : b ∈ m) : ∃ a ∈ l, r a b := by
  induction h with
  | nil => cases hb
  | cons hr _ ih =>
    rcases List.mem_cons.1 hb with rfl | hb
    · exact ⟨_, by simp, hr⟩
    · obtain ⟨a, ha, h⟩ := ih hb
      exact ⟨a, by simp [ha], h⟩

theorem forall₂_left {α β : Type*} {r : α → β → Prop} {l : List α} {m : List β}
    (h : List.Forall₂ r l m) {a : α} (ha : a ∈ l) : ∃ b ∈ m, r a b := by
  induction h with
  | nil => cases ha
  | cons hr _ ih =>
    rcases List.mem_cons.1 ha with rfl | ha
    · exact ⟨_, by simp, hr⟩
    · obtain ⟨b, hb, h⟩ := ih ha
      exact ⟨b, by simp [hb], h⟩

/-- The same queries, gates and lookups. -/
theorem Ready.of_eq {cs' : Cs F} (h : Ready na nf ni ns R D simple cs) (hr : Reach cs')
    (h1 : cs'.numAdvice = cs.numAdvice) (h2 : cs'.numFixed = cs.numFixed)
    (h3 : cs'.numInstance = cs.numInstance) (h4 : cs'.numSelectors = cs.numSelectors)
    (h5 : cs'.adviceQueries = cs.adviceQueries) (h6 : cs'.fixedQueries = cs.fixedQueries)
    (h7 : cs'.instanceQueries = cs.instanceQueries)
    (h8 : ∀ g ∈ cs'.gates, g ∈ cs.gates ∨
      ∀ e ∈ g, Built e ∧ (∀ s ∈ e.sels, s.simple = simple s.index) ∧ e.degree ≤ D + 1)
    (h9 : ∀ l ∈ cs'.lookups, l ∈ cs.lookups ∨
      (∀ e ∈ l.input, (∀ s ∈ e.sels, s.simple = simple s.index) ∧ e.degree ≤ D + 1) ∧
        ∀ e ∈ l.table, e.degree ≤ 1) (h10 : cs'.minimumDegree = cs.minimumDegree) :
    Ready na nf ni ns R D simple cs' where
  reach := hr
  numAdvice := h1.trans h.numAdvice
  numFixed := h2.trans h.numFixed
  numInstance := h3.trans h.numInstance
  numSelectors := h4.trans h.numSelectors
  advice := by rw [h5]; exact h.advice
  fixed := by rw [h6]; exact h.fixed
  inst := by rw [h7]; exact h.inst
  built := fun g hg e he => (h8 g hg).elim (fun hg => h.built g hg e he) fun hg => (hg e he).1
  flagG := fun g hg e he => (h8 g hg).elim (fun hg => h.flagG g hg e he) fun hg => (hg e he).2.1
  flagL := fun l hl e he => (h9 l hl).elim (fun hl => h.flagL l hl e he) fun hl => (hl.1 e he).1
  degG := fun g hg e he => (h8 g hg).elim (fun hg => h.degG g hg e he) fun hg => (hg e he).2.2
  degL := fun l hl => (h9 l hl).elim (fun hl => h.degL l hl) fun hl =>
    ⟨fun e he => (hl.1 e he).2, hl.2⟩
  min := h10.trans h.min

theorem add_gates (gates : Gates C S F) (hs : ∀ g ∈ gates, σ g.1 < ns)
    (hg : ∀ g ∈ gates, Polys (Allowed na nf ni R ι) D g.2) : ∀ cs : Cs F,
    Ready na nf ni ns R D simple cs → ∃ gs, List.Forall₂ (GateIs ι σ) gs gates ∧
      Ready na nf ni ns R D simple { cs with gates := cs.gates ++ gs } := by
  induction gates with
  | nil => intro cs h; exact ⟨[], .nil, by simpa using h⟩
  | cons g gates ih =>
    intro cs h
    obtain ⟨es, h1, h2, h3⟩ := polys_expr h (hs g (by simp)) (hg g (by simp))
    have hr : Ready na nf ni ns R D simple { cs with gates := cs.gates ++ [es] } := by
      refine h.of_eq (Reach.createGate h.reach (fun e he => (h2 e he).1)
        (by rw [Cs.createGate, if_neg h1])) rfl rfl rfl rfl rfl rfl rfl ?_ (fun l hl => .inl hl) rfl
      intro g' hg'
      rcases List.mem_append.1 hg' with hg' | hg'
      · exact .inl hg'
      · rw [List.mem_singleton] at hg'
        subst hg'
        exact .inr fun e he => (h2 e he).2
    obtain ⟨gs, k1, k2⟩ := ih (fun g hg => hs g (by simp [hg])) (fun g' h' => hg g' (by simp [h'])) _ hr
    refine ⟨es :: gs, .cons h3 k1, ?_⟩
    simpa using k2

/-- The input of the lookup is made of complex selectors and queries, one expression for each of the
table columns `cols`. -/
def LookupPoly (P : S → Prop) (Q : C → ℤ → Prop) (D nf : ℕ) (l : LookupArg C S F) (cols : List ℕ) :
    Prop :=
  ∃ fs : List ((S → F) → (C → ℤ → F) → F), fs.length = cols.length ∧ (∀ f ∈ fs, LPoly P Q D f) ∧
    (∀ c ∈ cols, c < nf) ∧ l.input = fun s q => fs.map fun f => f s q

/-- The table expressions query the columns `cols`. -/
def TableCols (l : Cs.Lookup F) (cols : List ℕ) : Prop :=
  ∀ n sel (t : Cols F) j, l.table.map (fun e => e.value id (rowEnv n sel t j)) =
    cols.map fun c => cellVal t ⟨.fixed, c⟩ (rotRow n j 0)

theorem lookup_entries (h : Ready na nf ni ns R D simple cs) (m : List (Expr F × ℕ))
    (hm : ∀ x ∈ m, x.1.containsSimple = false ∧ x.2 < nf) :
    ∃ es, cs.lookupEntries m = some (es, cs) ∧ es.map Prod.fst = m.map Prod.fst ∧
      (∀ e ∈ es, e.2.degree ≤ 1) ∧ ∀ n sel (t : Cols F) j, es.map (fun e => e.2.value id (rowEnv n sel t j)) =
        m.map fun x => cellVal t ⟨.fixed, x.2⟩ (rotRow n j 0) := by
  induction m with
  | nil => exact ⟨[], rfl, rfl, by simp, by simp⟩
  | cons x m ih =>
    obtain ⟨e, c⟩ := x
    obtain ⟨es, h1, h2, h5, h3⟩ := ih fun x hx => hm x (by simp [hx])
    obtain ⟨k1, k2⟩ := hm (e, c) (by simp)
    simp only at k1 k2
    rcases hf : Cs.findQuery (c, 0) 0 cs.fixedQueries with _ | i
    · exact absurd ((h.fixed c 0).2 ⟨k2, rfl⟩) (Cs.findQuery_none hf)
    · refine ⟨(e, .fixed ⟨i, c, 0⟩) :: es, ?_, by simp [h2],
        by simpa [Expr.degree] using h5, ?_⟩
      · rw [Cs.lookupEntries, if_neg (by simp [k1]), Cs.queryFixedIndex, hf]
        simp only [h1, Option.map_some]
      · intro n sel t j
        rw [List.map_cons, List.map_cons, h3]
        rfl

theorem add_lookups (lookups : List (LookupArg C S F × List ℕ)) {P : S → Prop}
    (hP : ∀ s, P s → σ s < ns ∧ simple (σ s) = false)
    (hl : ∀ l ∈ lookups, LookupPoly P (Allowed na nf ni R ι) D nf l.1 l.2) : ∀ cs : Cs F,
    Ready na nf ni ns R D simple cs →
    ∃ ls, List.Forall₂ (fun l' l => InputIs ι σ l' l.1 ∧ TableCols l' l.2) ls lookups ∧
      Ready na nf ni ns R D simple { cs with lookups := cs.lookups ++ ls } := by
  induction lookups with
  | nil => intro cs h; exact ⟨[], .nil, by simpa using h⟩
  | cons l lookups ih =>
    intro cs h
    obtain ⟨fs, h1, h2, h3, h4⟩ := hl l (by simp)
    have he : ∃ e : ((S → F) → (C → ℤ → F) → F) → Expr F, ∀ f ∈ fs, cs.Covers (e f) ∧ Built (e f) ∧
        (∀ s ∈ (e f).sels, s.simple = false ∧ simple s.index = false) ∧ (e f).degree ≤ D ∧
        ∀ n sel (t : Cols F) j, (e f).value id (rowEnv n sel t j) =
          f (fun s => if sel (σ s) j then 1 else 0) fun c rot => cellVal t (ι c) (rotRow n j rot) := by
      have hne : Nonempty (Expr F) := ⟨.constant 0⟩
      have := fun f hf => lpoly_expr (σ := σ) h hP (h2 f hf)
      choose! e he using this
      exact ⟨e, he⟩
    obtain ⟨e, he⟩ := he
    have hm : ∀ x ∈ (fs.map e).zip l.2, x.1.containsSimple = false ∧ x.2 < nf := by
      rintro ⟨x, c⟩ hx
      refine ⟨?_, h3 c (List.of_mem_zip hx).2⟩
      obtain ⟨f, hf, rfl⟩ := List.mem_map.1 (List.of_mem_zip hx).1
      rw [← Bool.not_eq_true, containsSimple_iff]
      rintro ⟨s, hs, h⟩
      rw [((he f hf).2.2.1 s hs).1] at h
      cases h
    obtain ⟨es, k1, k2, k4, k3⟩ := lookup_entries h _ hm
    have hfst : ((fs.map e).zip l.2).map Prod.fst = fs.map e :=
      List.map_fst_zip (by simp [h1])
    have hr : Ready na nf ni ns R D simple
        { cs with lookups := cs.lookups ++ [⟨es.map Prod.fst, es.map Prod.snd⟩] } := by
      refine h.of_eq (Reach.lookup h.reach (m := (fs.map e).zip l.2) ?_
        (p := (cs.lookups.length, _)) (by rw [Cs.lookup, k1]; rfl))
        rfl rfl rfl rfl rfl rfl rfl (fun g hg => .inl hg) ?_ rfl
      · rintro ⟨x, c⟩ hx
        obtain ⟨f, hf, rfl⟩ := List.mem_map.1 (List.of_mem_zip hx).1
        exact (he f hf).1
      · intro l' hl'
        rcases List.mem_append.1 hl' with hl' | hl'
        · exact .inl hl'
        · rw [List.mem_singleton] at hl'
          subst hl'
          refine .inr ⟨?_, ?_⟩
          · simp only [k2, hfst, List.mem_map]
            rintro _ ⟨f, hf, rfl⟩
            exact ⟨fun s hs => by rw [((he f hf).2.2.1 s hs).1, ((he f hf).2.2.1 s hs).2],
              (he f hf).2.2.2.1.trans (by omega)⟩
          · intro e he
            obtain ⟨x, hx, rfl⟩ := List.mem_map.1 he
            exact k4 x hx
    obtain ⟨ls, j1, j2⟩ := ih (fun l h' => hl l (by simp [h'])) _ hr
    refine ⟨⟨es.map Prod.fst, es.map Prod.snd⟩ :: ls, .cons ⟨?_, ?_⟩ j1, by simpa using j2⟩
    · intro n sel t j
      rw [k2, hfst, h4, List.map_map]
      exact List.map_congr_left fun f hf => (he f hf).2.2.2.2 n sel t j
    · intro n sel t j
      rw [List.map_map]
      have := k3 n sel t j
      rw [show (fun x : Expr F × ℕ => cellVal t ⟨.fixed, x.2⟩ (rotRow n j 0)) =
        (fun c => cellVal t ⟨.fixed, c⟩ (rotRow n j 0)) ∘ Prod.snd from rfl, ← List.map_map,
        List.map_snd_zip (by simp [h1])] at this
      exact this

/-- A column the constraint system has. -/
def HasCol (na nf ni : ℕ) : Column → Prop
  | ⟨.advice, i⟩ => i < na
  | ⟨.fixed, i⟩ => i < nf
  | ⟨.inst, i⟩ => i < ni

theorem Ready.queryAny (h : Ready na nf ni ns R D simple cs) {c : Column} (hc : HasCol na nf ni c) :
    ∃ i, cs.queryAnyIndex c 0 = some (i, cs) := by
  rcases c with ⟨_ | _ | _, k⟩
  · rw [Cs.queryAnyIndex, Cs.queryAdviceIndex]
    rcases hf : Cs.findQuery (k, 0) 0 cs.adviceQueries with _ | i
    · exact absurd ((h.advice k 0).2 ⟨hc, by simp⟩) (Cs.findQuery_none hf)
    · exact ⟨i, rfl⟩
  · rw [Cs.queryAnyIndex, Cs.queryFixedIndex]
    rcases hf : Cs.findQuery (k, 0) 0 cs.fixedQueries with _ | i
    · exact absurd ((h.fixed k 0).2 ⟨hc, rfl⟩) (Cs.findQuery_none hf)
    · exact ⟨i, rfl⟩
  · rw [Cs.queryAnyIndex, Cs.queryInstanceIndex]
    rcases hf : Cs.findQuery (k, 0) 0 cs.instanceQueries with _ | i
    · exact absurd ((h.inst k 0).2 ⟨hc, by simp⟩) (Cs.findQuery_none hf)
    · exact ⟨i, rfl⟩

theorem enable_equality (cols : List Column) (hc : ∀ c ∈ cols, HasCol na nf ni c) : ∀ cs : Cs F,
    Ready na nf ni ns R D simple cs → ∃ p, (∀ c, c ∈ p ↔ c ∈ cs.permutation ∨ c ∈ cols) ∧
      Ready na nf ni ns R D simple { cs with permutation := p } := by
  induction cols with
  | nil => intro cs h; exact ⟨cs.permutation, by simp, h⟩
  | cons c cols ih =>
    intro cs h
    obtain ⟨i, hi⟩ := h.queryAny (hc c (by simp))
    have hr := Reach.enableEquality (c := c) h.reach (by rw [Cs.enableEquality, hi]; rfl)
    simp only at hr
    by_cases hm : c ∈ cs.permutation
    · obtain ⟨p, h1, h2⟩ := ih (fun c h' => hc c (by simp [h'])) cs h
      refine ⟨p, fun x => ?_, h2⟩
      rw [h1, List.mem_cons]
      constructor
      · tauto
      · rintro (h | rfl | h)
        exacts [.inl h, .inl hm, .inr h]
    · rw [if_neg hm] at hr
      have h' : Ready na nf ni ns R D simple { cs with permutation := cs.permutation ++ [c] } :=
        h.of_eq hr rfl rfl rfl rfl rfl rfl rfl (fun g hg => .inl hg) (fun l hl => .inl hl) rfl
      obtain ⟨p, h1, h2⟩ := ih (fun c h' => hc c (by simp [h'])) _ h'
      refine ⟨p, fun x => ?_, h2⟩
      rw [h1]
      simp only [List.mem_append, List.mem_singleton, List.mem_cons]
      tauto

theorem enable_constants (cols : List ℕ) (hc : ∀ c ∈ cols, c < nf) : ∀ cs : Cs F,
    Ready na nf ni ns R D simple cs → (∀ c ∈ cs.constants, (⟨.fixed, c⟩ : Column) ∈ cs.permutation) →
    ∃ p k, (∀ c, c ∈ k ↔ c ∈ cs.constants ∨ c ∈ cols) ∧
      (∀ c, c ∈ p ↔ c ∈ cs.permutation ∨ ∃ i ∈ cols, c = ⟨.fixed, i⟩) ∧
      Ready na nf ni ns R D simple { cs with permutation := p, constants := k } := by
  induction cols with
  | nil => intro cs h _; exact ⟨cs.permutation, cs.constants, by simp, by simp, h⟩
  | cons c cols ih =>
    intro cs h hp
    by_cases hm : c ∈ cs.constants
    · obtain ⟨p, k, h1, h2, h3⟩ := ih (fun c h' => hc c (by simp [h'])) cs h hp
      refine ⟨p, k, fun x => ?_, fun x => ?_, h3⟩
      · rw [h1, List.mem_cons]
        constructor
        · tauto
        · rintro (h | rfl | h)
          exacts [.inl h, .inl hm, .inr h]
      · rw [h2]
        simp only [List.mem_cons, exists_eq_or_imp]
        constructor
        · tauto
        · rintro (h | rfl | h)
          exacts [.inl h, .inl (hp c hm), .inr h]
    · obtain ⟨i, hi⟩ := h.queryAny (c := ⟨.fixed, c⟩) (hc c (by simp))
      have hi' : ({ cs with constants := cs.constants ++ [c] } : Cs F).queryAnyIndex ⟨.fixed, c⟩ 0 =
          some (i, { cs with constants := cs.constants ++ [c] }) := by
        rw [Cs.queryAnyIndex, Cs.queryFixedIndex] at hi ⊢
        simp only at hi ⊢
        rcases hf : Cs.findQuery (c, 0) 0 cs.fixedQueries with _ | j
        · exact absurd ((h.fixed c 0).2 ⟨hc c (by simp), rfl⟩) (Cs.findQuery_none hf)
        · rw [hf] at hi
          simp only [Option.some.injEq, Prod.mk.injEq, and_true] at hi
          rw [hi]
      have hr := Reach.enableConstant (c := c) h.reach
        (by rw [Cs.enableConstant, if_neg hm, Cs.enableEquality, hi']; rfl)
      simp only at hr
      by_cases hq : (⟨.fixed, c⟩ : Column) ∈ cs.permutation
      · rw [if_pos hq] at hr
        have h' : Ready na nf ni ns R D simple { cs with constants := cs.constants ++ [c] } :=
          h.of_eq hr rfl rfl rfl rfl rfl rfl rfl (fun g hg => .inl hg) (fun l hl => .inl hl) rfl
        obtain ⟨p, k, h1, h2, h3⟩ := ih (fun c h' => hc c (by simp [h'])) _ h' (by
          intro x hx
          rcases List.mem_append.1 hx with hx | hx
          · exact hp x hx
          · rw [List.mem_singleton] at hx
            subst hx
            exact hq)
        refine ⟨p, k, fun x => ?_, fun x => ?_, h3⟩
        · rw [h1]
          simp only [List.mem_append, List.mem_singleton, List.mem_cons]
          tauto
        · rw [h2]
          simp only [List.mem_cons, exists_eq_or_imp]
          constructor
          · tauto
          · rintro (h | rfl | h)
            exacts [.inl h, .inl hq, .inr h]
      · rw [if_neg hq] at hr
        have h' : Ready na nf ni ns R D simple { cs with
            constants := cs.constants ++ [c], permutation := cs.permutation ++ [⟨.fixed, c⟩] } :=
          h.of_eq hr rfl rfl rfl rfl rfl rfl rfl (fun g hg => .inl hg) (fun l hl => .inl hl) rfl
        obtain ⟨p, k, h1, h2, h3⟩ := ih (fun c h' => hc c (by simp [h'])) _ h' (by
          intro x hx
          rcases List.mem_append.1 hx with hx | hx
          · exact List.mem_append_left _ (hp x hx)
          · rw [List.mem_singleton] at hx
            subst hx
            simp)
        refine ⟨p, k, fun x => ?_, fun x => ?_, h3⟩
        · rw [h1]
          simp only [List.mem_append, List.mem_singleton, List.mem_cons]
          tauto
        · rw [h2]
          simp only [List.mem_append, List.mem_singleton, List.mem_cons, exists_eq_or_imp]
          tauto

/-- **C80, there is such a circuit.**  Gates and lookups made of queries by ring operations are those
of a constraint system the API can build, with equality enabled on given columns and constants in
given columns. -/
theorem exists_configured (gates : Gates C S F) (lookups : List (LookupArg C S F × List ℕ))
    {P : S → Prop} (cols : List Column) (consts : List ℕ)
    (hs : ∀ g ∈ gates, σ g.1 < ns) (hg : ∀ g ∈ gates, Polys (Allowed na nf ni R ι) D g.2)
    (hP : ∀ s, P s → σ s < ns ∧ simple (σ s) = false)
    (hl : ∀ l ∈ lookups, LookupPoly P (Allowed na nf ni R ι) D nf l.1 l.2)
    (hc : ∀ c ∈ cols, HasCol na nf ni c) (hk : ∀ c ∈ consts, c < nf) :
    ∃ cs : Cs F, Ready na nf ni ns R D simple cs ∧
      (∀ c, c ∈ cs.permutation ↔ c ∈ cols ∨ ∃ i ∈ consts, c = ⟨.fixed, i⟩) ∧
      (∀ c, c ∈ cs.constants ↔ c ∈ consts) ∧
      ∀ n usable (t : Cols F), usable ≤ n →
        (∀ l ∈ lookups, ∀ v, v ∈ l.1.table ↔
          ∃ j < usable, (l.2.map fun c => cellVal t ⟨.fixed, c⟩ (rotRow n j 0)) = v) →
        Implements ι σ gates (lookups.map Prod.fst) cs n usable t := by
  obtain ⟨cs, h0, g0, l0, p0, c0⟩ := exists_ready (F := F) na nf ni ns R D simple
  obtain ⟨gs, h1, h2⟩ := add_gates gates hs hg cs h0
  obtain ⟨ls, h3, h4⟩ := add_lookups lookups hP hl _ h2
  obtain ⟨p, h5, h6⟩ := enable_equality cols hc _ h4
  obtain ⟨p', k, h7, h8, h9⟩ := enable_constants consts hk _ h6 (by simp [c0])
  refine ⟨_, h9, ?_, ?_, ?_⟩
  · intro c
    simp only [h8, h5, p0, List.not_mem_nil, false_or]
  · intro c
    simp only [h7, c0, List.not_mem_nil, false_or]
  · intro n usable t _ ht
    refine ⟨?_, ?_, ?_, ?_⟩
    · intro g hg
      simp only [g0, List.nil_append]
      exact forall₂_right h1 hg
    · intro e he
      simp only [g0, List.nil_append] at he
      exact forall₂_left h1 he
    · intro l hl
      obtain ⟨x, hx, rfl⟩ := List.mem_map.1 hl
      simp only [l0, List.nil_append]
      obtain ⟨l', m1, m2, m3⟩ := forall₂_right h3 hx
      refine ⟨l', m1, m2, fun sel v => ?_⟩
      rw [ht x hx v]
      simp only [m3 n sel t]
    · intro l' hl'
      simp only [l0, List.nil_append] at hl'
      obtain ⟨x, hx, m2, m3⟩ := forall₂_left h3 hl'
      refine ⟨x.1, List.mem_map.2 ⟨x, hx, rfl⟩, m2, fun sel v => ?_⟩
      rw [ht x hx v]
      simp only [m3 n sel t]

end Verif.Layout
