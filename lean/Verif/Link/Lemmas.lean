import Verif.Link.Model
import Verif.Mock.Accept
import Verif.Rows.Prover
import Verif.Plonk.Soundness

/-!
# The circuit as configured and the circuit of the keys
-/

namespace Verif.Link

open Verif.Assigned (Assigned)
open Verif.Cs (Cs Column Kind Reach Extends)
open Verif.Domain (Domain Consts)
open Verif.Expr
open Verif.ExprEval
open Verif.Rows
open Verif.Plonk (Pk Circuit Ready cols colValues)
open Verif.Mock (cellVal assignment)

variable {F : Type} [Field F] [DecidableEq F]

/-! ### Specification -/

/-- The circuit as configured is satisfied by the cells `t`, with the selectors and copies the calls
ask for: gates on all `n` rows, lookups on the usable rows, copies. -/
structure Meets (cs : Cs F) (n : ℕ) (ops : List (Op F)) (t : Cols F) : Prop where
  gates : ∀ g ∈ cs.gates, ∀ e ∈ g, ∀ j < n,
    e.value id (rowEnv n (fun i r => ops.any (enables (n - (cs.blindingFactors + 1)) i r)) t j) = 0
  lookups : ∀ l ∈ cs.lookups, ∀ j < n - (cs.blindingFactors + 1),
    ∃ j' < n - (cs.blindingFactors + 1),
      l.input.map (fun e => e.value id
        (rowEnv n (fun i r => ops.any (enables (n - (cs.blindingFactors + 1)) i r)) t j)) =
      l.table.map (fun e => e.value id
        (rowEnv n (fun i r => ops.any (enables (n - (cs.blindingFactors + 1)) i r)) t j'))
  copies : ∀ lc lr rc rr, Op.copy lc lr rc rr ∈ ops → lc ∈ cs.permutation → rc ∈ cs.permutation →
    lr < n - (cs.blindingFactors + 1) → rr < n - (cs.blindingFactors + 1) →
    cellVal t lc lr = cellVal t rc rr

/-- The fixed cells the calls describe: the last write to each, zero where there is none. -/
def fixedCells (cs : Cs F) (n : ℕ) (ops : List (Op F)) (c r : ℕ) : F :=
  (lastWrite (fixedWrite (n - (cs.blindingFactors + 1)) c r) ops).elim 0 Assigned.evaluate

/-- What the caller of the API has to respect when it configures a circuit for `n` rows: every column
named belongs to this constraint system, no rotation exceeds the number of rows, gates are built with
the operators on expressions, the flag of a selector is the one it was created with (`simple`), and
the characteristic of the field exceeds the degree. -/
structure Configured (cs : Cs F) (n : ℕ) (simple : ℕ → Bool) : Prop where
  reach : Reach cs
  built : ∀ g ∈ cs.gates, ∀ e ∈ g, Built e
  fixed : ∀ q ∈ cs.fixedQueries, q.1 < cs.numFixed
  inst : ∀ q ∈ cs.instanceQueries, q.1 < cs.numInstance
  adviceRot : ∀ q ∈ cs.adviceQueries, q.2.natAbs ≤ n
  instRot : ∀ q ∈ cs.instanceQueries, q.2.natAbs ≤ n
  flagG : ∀ g ∈ cs.gates, ∀ e ∈ g, ∀ s ∈ e.sels, s.simple = simple s.index
  flagL : ∀ l ∈ cs.lookups, ∀ e ∈ l.input, ∀ s ∈ e.sels, s.simple = simple s.index
  char : ∀ i : ℕ, 0 < i → i ≤ cs.degree → (i : F) ≠ 0

/-- The calls that describe the circuit rather than its witness. -/
def describes : Op F → Bool
  | .selector _ _ => true
  | .fixed _ _ _ => true
  | .copy _ _ _ _ => true
  | .fill _ _ _ => true
  | _ => false

/-- Two executions of `synthesize` describe the same circuit. -/
def SameCircuit (ops ops' : List (Op F)) : Prop := ops.filter describes = ops'.filter describes

/-! ### Calls that describe the same circuit -/

omit [Field F] [DecidableEq F] in
theorem any_describes {p : Op F → Bool} (hp : ∀ o, describes o = false → p o = false)
    {ops ops' : List (Op F)} (h : SameCircuit ops ops') : ops.any p = ops'.any p := by
  have key : ∀ l : List (Op F), l.any p = (l.filter describes).any p := by
    intro l
    induction l with
    | nil => rfl
    | cons o l ih =>
      rw [List.any_cons, List.filter_cons]
      split_ifs with ho
      · rw [List.any_cons, ih]
      · rw [hp o (by simpa using ho), Bool.false_or, ih]
  rw [key ops, key ops', h]

omit [Field F] [DecidableEq F] in
theorem lastWrite_describes {V : Type} {w : Op F → Option V}
    (hw : ∀ o, describes o = false → w o = none) {ops ops' : List (Op F)} (h : SameCircuit ops ops') :
    lastWrite w ops = lastWrite w ops' := by
  have key : ∀ l : List (Op F), lastWrite w l = lastWrite w (l.filter describes) := by
    intro l
    induction l using List.reverseRecOn with
    | nil => rfl
    | append_singleton l o ih =>
      rw [List.filter_append, lastWrite_snoc, ih]
      by_cases ho : describes o = true
      · rw [List.filter_cons_of_pos ho, List.filter_nil, lastWrite_snoc]
      · have ho' : describes o = false := by simpa using ho
        rw [List.filter_cons_of_neg ho, List.filter_nil, List.append_nil, hw o ho']
        rfl
  rw [key ops, key ops', h]

omit [Field F] [DecidableEq F] in
theorem mem_describes {o : Op F} (ho : describes o = true) {ops ops' : List (Op F)}
    (h : SameCircuit ops ops') : o ∈ ops ↔ o ∈ ops' := by
  have key : ∀ l : List (Op F), o ∈ l ↔ o ∈ l.filter describes := by
    intro l
    rw [List.mem_filter]
    exact ⟨fun hx => ⟨hx, ho⟩, fun hx => hx.1⟩
  rw [key ops, key ops', h]

omit [DecidableEq F] in
theorem meets_same {cs : Cs F} {n : ℕ} {ops ops' : List (Op F)} (h : SameCircuit ops ops')
    {t : Cols F} (hm : Meets cs n ops t) : Meets cs n ops' t := by
  have hs : (fun i r => ops.any (enables (n - (cs.blindingFactors + 1)) i r)) =
      fun i r => ops'.any (enables (n - (cs.blindingFactors + 1)) i r) := by
    funext i r
    exact any_describes (fun o ho => by cases o <;> simp_all [describes, enables]) h
  obtain ⟨h1, h2, h3⟩ := hm
  rw [hs] at h1 h2
  exact ⟨h1, h2, fun lc lr rc rr ho => h3 lc lr rc rr ((mem_describes rfl h).2 ho)⟩

theorem fixedCells_same {cs : Cs F} {n : ℕ} {ops ops' : List (Op F)} (h : SameCircuit ops ops') :
    fixedCells cs n ops = fixedCells cs n ops' := by
  funext c r
  unfold fixedCells
  rw [lastWrite_describes (fun o ho => by cases o <;> simp_all [describes, fixedWrite]) h]

/-! ### Cells that are not read do not matter -/

theorem rotRow_lt {n : ℕ} (hn : 0 < n) (j : ℕ) (r : ℤ) : rotRow n j r < n := by
  have h1 := Int.emod_nonneg ((j : ℤ) + r) (b := (n : ℤ)) (by omega)
  have h2 := Int.emod_lt_of_pos ((j : ℤ) + r) (b := (n : ℤ)) (by omega)
  unfold rotRow
  omega

omit [DecidableEq F] in
theorem value_cells {cs : Cs F} {e : Expr F} (he : cs.Covers e) {v w : Env F} (hs : v.sel = w.sel)
    (hf : ∀ q : Query, (q.column, q.rotation) ∈ cs.fixedQueries → v.fixed q = w.fixed q)
    (ha : ∀ q : Query, (q.column, q.rotation) ∈ cs.adviceQueries → v.advice q = w.advice q)
    (hi : ∀ q : Query, (q.column, q.rotation) ∈ cs.instanceQueries → v.inst q = w.inst q) :
    e.value id v = e.value id w := by
  induction e with
  | constant => rfl
  | selector s => exact congrFun hs s
  | fixed q => exact hf q (List.mem_of_getElem? he)
  | advice q => exact ha q (List.mem_of_getElem? he)
  | inst q => exact hi q (List.mem_of_getElem? he)
  | negated a ih => exact congrArg Neg.neg (ih he)
  | sum a b iha ihb => exact congrArg₂ (· + ·) (iha he.1) (ihb he.2)
  | product a b iha ihb => exact congrArg₂ (· * ·) (iha he.1) (ihb he.2)
  | scaled a c ih => exact congrArg (· * c) (ih he)

/-- The two assignments agree on the cells of the constraint system. -/
structure Agree (cs : Cs F) (n : ℕ) (t t' : Cols F) : Prop where
  fixed : ∀ c < cs.numFixed, ∀ r < n, t.fixed c r = t'.fixed c r
  advice : ∀ c < cs.numAdvice, ∀ r < n, t.advice c r = t'.advice c r
  inst : ∀ c < cs.numInstance, ∀ r < n, t.inst c r = t'.inst c r

omit [DecidableEq F] in
theorem Configured.perm {cs : Cs F} {n : ℕ} {simple : ℕ → Bool} (h : Configured cs n simple)
    {c : Column} (hc : c ∈ cs.permutation) : match c.kind with
      | .advice => c.index < cs.numAdvice
      | .fixed => c.index < cs.numFixed
      | .inst => c.index < cs.numInstance := by
  have hi := Verif.Cs.reach_inv h.reach
  have := hi.permQueried c hc
  rcases c with ⟨_ | _ | _, i⟩
  all_goals dsimp only at this ⊢
  · exact hi.adviceLt _ this
  · exact h.fixed _ this
  · exact h.inst _ this

omit [DecidableEq F] in
theorem meets_agree {cs : Cs F} {n : ℕ} {simple : ℕ → Bool} (h : Configured cs n simple)
    {ops : List (Op F)} {t t' : Cols F} (ha : Agree cs n t t') (hm : Meets cs n ops t) :
    Meets cs n ops t' := by
  have hi := Verif.Cs.reach_inv h.reach
  have hv : ∀ e, cs.Covers e → ∀ j < n, ∀ sel, e.value id (rowEnv n sel t j) =
      e.value id (rowEnv n sel t' j) := by
    intro e he j hj sel
    have hn : 0 < n := by omega
    refine value_cells he rfl ?_ ?_ ?_
    · intro q hq; exact ha.fixed _ (h.fixed _ hq) _ (rotRow_lt hn _ _)
    · intro q hq; exact ha.advice _ (hi.adviceLt _ hq) _ (rotRow_lt hn _ _)
    · intro q hq; exact ha.inst _ (h.inst _ hq) _ (rotRow_lt hn _ _)
  refine ⟨?_, ?_, ?_⟩
  · intro g hg e he j hj
    rw [← hv e ((hi.gates g hg).2 e he) j hj]
    exact hm.gates g hg e he j hj
  · intro l hl j hj
    obtain ⟨j', hj', hx⟩ := hm.lookups l hl j hj
    refine ⟨j', hj', ?_⟩
    have hc := hi.lookups l hl
    rw [← List.map_congr_left fun e he => hv e (hc.2.1 e he).1 j (by omega) _,
      ← List.map_congr_left fun e he => hv e (hc.2.2 e he).1 j' (by omega) _]
    exact hx
  · intro lc lr rc rr ho hl hr hlr hrr
    have key : ∀ c ∈ cs.permutation, ∀ r < n, cellVal t c r = cellVal t' c r := by
      intro c hc r hr
      have := h.perm hc
      unfold cellVal
      rcases c with ⟨_ | _ | _, i⟩
      all_goals dsimp only at this ⊢
      · exact ha.advice _ this _ hr
      · exact ha.fixed _ this _ hr
      · exact ha.inst _ this _ hr
    rw [← key lc hl lr (by omega), ← key rc hr rr (by omega)]
    exact hm.copies lc lr rc rr ho hl hr hlr hrr

/-! ### The constraint system of the keys -/

omit [DecidableEq F] in
/-- What compression leaves alone. -/
theorem compress_fields [DecidableEq F] {cs cs' : Cs F} (hr : Reach cs) {sels : List (List Bool)}
    {polys : List (List F)} {smap : List ℕ}
    (h : Selectors.compressSelectors cs sels = some (cs', polys, smap)) :
    cs'.permutation = cs.permutation ∧ cs'.numAdviceQueries = cs.numAdviceQueries ∧
      cs'.adviceQueries = cs.adviceQueries ∧ cs'.instanceQueries = cs.instanceQueries ∧
      cs'.numAdvice = cs.numAdvice ∧ cs'.numInstance = cs.numInstance ∧
      cs.fixedQueries <+: cs'.fixedQueries ∧ (∀ q ∈ cs'.fixedQueries, q.2 = 0) ∧
      ∀ q ∈ cs'.fixedQueries, q ∈ cs.fixedQueries ∨ q.1 < cs'.numFixed := by
  have hi := Verif.Cs.reach_inv hr
  unfold Selectors.compressSelectors at h
  split_ifs at h
  obtain ⟨d, -, h⟩ := Option.bind_eq_some_iff.1 h
  obtain ⟨r, -, h⟩ := Option.bind_eq_some_iff.1 h
  obtain ⟨sm, -, h⟩ := Option.bind_eq_some_iff.1 h
  obtain ⟨repl, -, h⟩ := Option.bind_eq_some_iff.1 h
  obtain ⟨gates, -, h⟩ := Option.bind_eq_some_iff.1 h
  obtain ⟨lookups, hl, h⟩ := Option.map_eq_some_iff.1 h
  cases h
  obtain ⟨h1, h2, h3, h4, h5, h6, h7, h8, h9, h10, h11⟩ :=
    Selectors.allocated_spec cs hi r.1.length
  refine ⟨h6, h7, h8, h9, h10, h11, h2.fixed, h1.fixedCur, ?_⟩
  have key : ∀ k, ∀ q ∈ (Selectors.allocated cs k).fixedQueries,
      q ∈ cs.fixedQueries ∨ q.1 < (Selectors.allocated cs k).numFixed := by
    intro k
    induction k with
    | zero => intro q hq; exact .inl hq
    | succ k ih =>
      intro q hq
      have hinv := (Selectors.allocated_spec cs hi k).1
      have hnf := (Selectors.allocate_spec _ hinv).2.2.1
      rw [show Selectors.allocated cs (k + 1) = (Selectors.allocate (Selectors.allocated cs k)).2
        from rfl] at hq ⊢
      rw [hnf]
      have hal : (Selectors.allocate (Selectors.allocated cs k)).2 =
        ((Selectors.allocated cs k).fixedColumn.2.queryFixedIndex
          (Selectors.allocated cs k).numFixed).2 := rfl
      rw [hal, Verif.Cs.Cs.queryFixedIndex] at hq
      split at hq
      · rcases ih q hq with h | h
        · exact .inl h
        · exact .inr (by omega)
      · rcases List.mem_append.1 hq with hq | hq
        · rcases ih q hq with h | h
          · exact .inl h
          · exact .inr (by omega)
        · rw [List.mem_singleton.1 hq]
          exact .inr (by dsimp only; omega)
  exact key r.1.length

theorem cols_extend {fixed polys : List (List F)} {m : ℕ} (h : fixed.length = m) (w : Circuit F) :
    Selectors.extend (cols fixed w) m polys = cols (fixed ++ polys) w := by
  unfold Selectors.extend cols
  congr 1
  funext c j
  subst h
  split_ifs with hc
  · rw [List.getD_append _ _ _ _ hc]
  · rw [List.getD_append_right _ _ _ _ (by omega)]

/-- The rows of a circuit satisfy the gates, copies and lookups of a constraint system. -/
structure Fulfils (cs : Cs F) (n : ℕ) (fv : List (List F)) (calls : List (Copy.Call Column))
    (w : Circuit F) : Prop where
  gates : ∀ j < n, ∀ e ∈ cs.gates.flatten, rowVal n (cols fv w) j e = 0
  copies : Verif.Permutation.CopiesHold cs.permutation n calls (colValues fv w)
  lookups : ∀ l ∈ cs.lookups, ∀ i < n - (cs.blindingFactors + 1),
    ∃ j < n - (cs.blindingFactors + 1),
      l.input.map (rowVal n (cols fv w) i) = l.table.map (rowVal n (cols fv w) j)

theorem colValues_cell {fixed polys : List (List F)} {w : Circuit F} {c : Column} {r : ℕ}
    (h : c.kind = .fixed → c.index < fixed.length) :
    (colValues (fixed ++ polys) w c).getD r 0 = cellVal (cols fixed w) c r := by
  unfold colValues cellVal cols
  rcases c with ⟨_ | _ | _, i⟩
  · rfl
  · dsimp only at h ⊢
    rw [List.getD_append _ _ _ _ (h rfl)]
  · rfl

omit [Field F] [DecidableEq F] in
theorem requested_iff {columns : List Column} {n usable : ℕ} {ops : List (Op F)}
    {a b : Copy.Cell columns n} :
    Copy.Requested (ops.filterMap (copyCall usable)) a b ↔ ∃ lc lr rc rr, Op.copy lc lr rc rr ∈ ops ∧
      lr < usable ∧ rr < usable ∧ Copy.Names columns n lc lr a ∧ Copy.Names columns n rc rr b := by
  constructor
  · rintro ⟨c, hc, h1, h2⟩
    obtain ⟨o, ho, hoc⟩ := List.mem_filterMap.1 hc
    cases o with
    | copy lc lr rc rr =>
      simp only [copyCall] at hoc
      split_ifs at hoc with hu
      cases hoc
      exact ⟨lc, lr, rc, rr, ho, hu.1, hu.2, h1, h2⟩
    | _ => cases hoc
  · rintro ⟨lc, lr, rc, rr, ho, hl, hr, h1, h2⟩
    exact ⟨⟨lc, lr, rc, rr⟩, List.mem_filterMap.2 ⟨_, ho, by simp [copyCall, hl, hr]⟩, h1, h2⟩

/-- Key generation keeps the meaning of the circuit: what it assembles has the fixed cells and copies
the calls describe, and columns fulfil the resulting constraint system exactly when they satisfy the
circuit as configured. -/
structure Assembled (cs : Cs F) (n : ℕ) (ops : List (Op F)) (cs' : Cs F) (fv : List (List F))
    (perm : Copy.Assembly cs.permutation n) : Prop where
  rows : cs.minimumRows ≤ n
  blinding : cs'.blindingFactors = cs.blindingFactors
  degree : cs'.degree ≤ cs.degree
  ready : Ready cs' n
  permutation : cs'.permutation = cs.permutation
  numAdvice : cs'.numAdvice = cs.numAdvice
  numInstance : cs'.numInstance = cs.numInstance
  numFixed : cs.numFixed ≤ cs'.numFixed
  lookups : cs'.lookups = [] ↔ cs.lookups = []
  width : ∀ l ∈ cs'.lookups, l.input.length = l.table.length
  fixedLen : fv.length = cs'.numFixed
  fixedRows : ∀ v ∈ fv, v.length = n
  fixed : ∀ c < cs.numFixed, ∀ r < n, (fv.getD c []).getD r 0 = fixedCells cs n ops c r
  perm : perm = Copy.run (Copy.new cs.permutation n)
    (ops.filterMap (copyCall (n - (cs.blindingFactors + 1))))
  same : ∀ w : Circuit F, Fulfils cs' n fv
      (ops.filterMap (copyCall (n - (cs.blindingFactors + 1)))) w ↔
    Meets cs n ops ⟨fixedCells cs n ops, (cols fv w).advice, (cols fv w).inst⟩

theorem assemble_spec {cs : Cs F} {n : ℕ} {simple : ℕ → Bool} (h : Configured cs n simple)
    {ops : List (Op F)} {a : Cs F × List (List F) × Copy.Assembly cs.permutation n}
    (ha : assemble cs n ops = some a) : Assembled cs n ops a.1 a.2.1 a.2.2 := by
  have hi := Verif.Cs.reach_inv h.reach
  unfold assemble at ha
  split_ifs at ha with hmin
  obtain ⟨s, hs, ha⟩ := Option.bind_eq_some_iff.1 ha
  have hs' := (keygen_run cs n ops).1 s hs
  subst hs'
  rw [Verif.Assigned.batchInvertAssigned_eq, Option.bind_some] at ha
  obtain ⟨r, hr, ha⟩ := Option.bind_eq_some_iff.1 ha
  split_ifs at ha with hpl
  obtain ⟨cs', polys, smap⟩ := r
  dsimp only at ha hpl
  cases ha
  dsimp only
  obtain ⟨cs₁, polys₁, smap₁, hcomp, hnf, -, hG, hL, hdeg, -, -, -⟩ := Selectors.compress_spec cs
    h.reach h.built h.fixed (Keygen.after cs n ops).selectors (by simp [Keygen.after, grid]) n
    (by simp [Keygen.after, grid]) simple h.flagG h.flagL h.char
  rw [hr] at hcomp
  cases hcomp
  obtain ⟨f1, f2, f3, f4, f5, f6, f7, f8, f9⟩ := compress_fields h.reach hr
  obtain ⟨fixed, hfix⟩ : ∃ x, x = grid cs.numFixed n (fixedCells cs n ops) := ⟨_, rfl⟩
  have hfv : ((Keygen.after cs n ops).fixed.map fun c => c.map fun a => a.evaluate) = fixed := by
    rw [hfix]
    simp only [Keygen.after, grid, List.map_map]
    refine List.map_congr_left fun c _ => ?_
    simp only [Function.comp, List.map_map]
    refine List.map_congr_left fun r _ => ?_
    simp only [Function.comp, fixedCells]
    rcases lastWrite (fixedWrite (n - (cs.blindingFactors + 1)) c r) ops with _ | x
    · rfl
    · rfl
  rw [hfv]
  have hfl : fixed.length = cs.numFixed := by rw [hfix]; simp [grid]
  have hbf : cs'.blindingFactors = cs.blindingFactors := by
    unfold Verif.Cs.Cs.blindingFactors; rw [f2]
  have hact : ∀ i < cs.numSelectors, ∀ j < n,
      ((Keygen.after cs n ops).selectors.getD i []).getD j false =
      ops.any (enables (n - (cs.blindingFactors + 1)) i j) := by
    intro i hi j hj
    simp only [Keygen.after]
    rw [List.getD_eq_getElem?_getD (l := grid _ _ _), grid_col hi]
    simp only [Option.getD_some, List.getD_eq_getElem?_getD, List.getElem?_map,
      List.getElem?_range hj, Option.map_some]
  have hval : ∀ (t : Cols F) e, cs.Covers e → ∀ j < n, e.value id (rowEnv n
      (fun i j => ((Keygen.after cs n ops).selectors.getD i []).getD j false) t j) =
      e.value id (rowEnv n (fun i r => ops.any (enables (n - (cs.blindingFactors + 1)) i r)) t j) := by
    intro t e he j hj
    refine Selectors.value_congr he ?_ (fun _ _ => rfl) rfl rfl
    intro sel hsel
    simp only [rowEnv, hact _ (Selectors.sel_index_lt he sel hsel) j hj]
  have hcell : ∀ c < cs.numFixed, ∀ r < n,
      ((fixed ++ polys).getD c []).getD r 0 = fixedCells cs n ops c r := by
    intro c hc r hr
    rw [List.getD_append _ _ _ _ (by omega), hfix, List.getD_eq_getElem?_getD (l := grid _ _ _),
      grid_col hc]
    simp only [Option.getD_some, List.getD_eq_getElem?_getD, List.getElem?_map,
      List.getElem?_range hr, Option.map_some]
  refine ⟨by omega, hbf, hdeg, ?_, f1, f5, f6, by omega, ?_, ?_, ?_, ?_, hcell, rfl, ?_⟩
  · -- ready
    refine ⟨?_, ?_, ?_, ?_, ?_, ?_⟩
    · intro e he
      obtain ⟨g, hg, he⟩ := List.mem_flatten.1 he
      obtain ⟨gi, hgi, rfl⟩ := List.mem_iff_getElem.1 hg
      have hgi' : gi < cs.gates.length := by rw [hG.length_eq]; exact hgi
      have hG' := (List.forall₂_iff_get.1 hG).2 gi hgi' hgi
      simp only [List.get_eq_getElem] at hG'
      obtain ⟨pi, hpi, rfl⟩ := List.mem_iff_getElem.1 he
      have hpi' : pi < cs.gates[gi].length := by rw [hG'.length_eq]; exact hpi
      have hE := (List.forall₂_iff_get.1 hG').2 pi hpi' hpi
      exact ⟨hE.covers, hE.sels⟩
    · intro l hl e he
      obtain ⟨li, hli, rfl⟩ := List.mem_iff_getElem.1 hl
      have hli' : li < cs.lookups.length := by rw [hL.length_eq]; exact hli
      have hL' := (List.forall₂_iff_get.1 hL).2 li hli' hli
      simp only [List.get_eq_getElem] at hL'
      have key : ∀ (a b : List (Expr F)), List.Forall₂ (Selectors.SameExpr cs cs' n
          (fun i j => ((Keygen.after cs n ops).selectors.getD i []).getD j false) polys) a b →
          ∀ e ∈ b, cs'.Covers e ∧ e.sels = [] := by
        intro a b hab e he
        obtain ⟨i, hi, rfl⟩ := List.mem_iff_getElem.1 he
        have hE := (List.forall₂_iff_get.1 hab).2 i (by rw [hab.length_eq]; exact hi) hi
        exact ⟨hE.covers, hE.sels⟩
      rcases List.mem_append.1 he with he | he
      · exact key _ _ hL'.1 e he
      · exact key _ _ hL'.2 e he
    · intro c hc
      rw [f1] at hc
      have h1 := h.perm hc
      have h2 := hi.permQueried c hc
      rcases c with ⟨_ | _ | _, i⟩
      all_goals dsimp only [Verif.Plonk.colOk] at h1 h2 ⊢
      · rw [f3, f5]; exact ⟨by simpa using h1, h2⟩
      · exact ⟨by simp only [decide_eq_true_eq]; omega, f7.subset h2⟩
      · rw [f4, f6]; exact ⟨by simpa using h1, h2⟩
    · intro q hq
      refine ⟨?_, by rw [f8 q hq]; simp⟩
      rcases f9 q hq with hq | hq
      · have := h.fixed q hq; omega
      · exact hq
    · intro q hq
      rw [f3] at hq
      rw [f5]
      exact ⟨hi.adviceLt q hq, h.adviceRot q hq⟩
    · intro q hq
      rw [f4] at hq
      rw [f6]
      exact ⟨h.inst q hq, h.instRot q hq⟩
  · rw [← List.length_eq_zero_iff, ← hL.length_eq, List.length_eq_zero_iff]
  · intro l hl
    obtain ⟨li, hli, rfl⟩ := List.mem_iff_getElem.1 hl
    have hli' : li < cs.lookups.length := by rw [hL.length_eq]; exact hli
    have hL' := (List.forall₂_iff_get.1 hL).2 li hli' hli
    simp only [List.get_eq_getElem] at hL'
    rw [← hL'.1.length_eq, ← hL'.2.length_eq]
    exact (hi.lookups _ (List.getElem_mem hli')).1
  · rw [List.length_append, hfl, hnf]
  · intro v hv
    rcases List.mem_append.1 hv with hv | hv
    · rw [hfix] at hv
      simp only [grid, List.mem_map] at hv
      obtain ⟨_, _, rfl⟩ := hv
      simp
    · exact hpl v hv
  · intro w
    have hag : Agree cs n (cols fixed w)
        ⟨fixedCells cs n ops, (cols (fixed ++ polys) w).advice, (cols (fixed ++ polys) w).inst⟩ := by
      refine ⟨?_, fun _ _ _ _ => rfl, fun _ _ _ _ => rfl⟩
      intro c hc r hr
      show (fixed.getD c []).getD r 0 = fixedCells cs n ops c r
      rw [← hcell c hc r hr, List.getD_append _ _ _ _ (by omega)]
    have hag' : Agree cs n
        ⟨fixedCells cs n ops, (cols (fixed ++ polys) w).advice, (cols (fixed ++ polys) w).inst⟩
        (cols fixed w) :=
      ⟨fun c hc r hr => (hag.fixed c hc r hr).symm, fun _ _ _ _ => rfl, fun _ _ _ _ => rfl⟩
    rw [show Meets cs n ops
        ⟨fixedCells cs n ops, (cols (fixed ++ polys) w).advice, (cols (fixed ++ polys) w).inst⟩ ↔
        Meets cs n ops (cols fixed w) from ⟨meets_agree h hag', meets_agree h hag⟩]
    have hgate : ∀ e e', Selectors.SameGate cs cs' n
        (fun i j => ((Keygen.after cs n ops).selectors.getD i []).getD j false) polys e e' →
        cs.Covers e → ∀ j < n, rowVal n (cols (fixed ++ polys) w) j e' = 0 ↔
          e.value id (rowEnv n (fun i r => ops.any (enables (n - (cs.blindingFactors + 1)) i r))
            (cols fixed w) j) = 0 := by
      intro e e' hE he j hj
      rw [← cols_extend hfl, hE.value _ j hj, hval _ e he j hj]
    have hexpr : ∀ (a b : List (Expr F)), List.Forall₂ (Selectors.SameExpr cs cs' n
          (fun i j => ((Keygen.after cs n ops).selectors.getD i []).getD j false) polys) a b →
        (∀ e ∈ a, cs.Covers e) → ∀ j < n, b.map (rowVal n (cols (fixed ++ polys) w) j) =
          a.map fun e => e.value id (rowEnv n
            (fun i r => ops.any (enables (n - (cs.blindingFactors + 1)) i r)) (cols fixed w) j) := by
      intro a b hab hcov j hj
      induction hab with
      | nil => rfl
      | cons hE _ ih =>
        rw [List.map_cons, List.map_cons, ih fun e he => hcov e (List.mem_cons_of_mem _ he),
          ← cols_extend hfl, hE.value _ j hj, hval _ _ (hcov _ List.mem_cons_self) j hj]
    constructor
    · rintro ⟨h1, h2, h3⟩
      refine ⟨?_, ?_, ?_⟩
      · intro g hg e he j hj
        obtain ⟨gi, hgi, rfl⟩ := List.mem_iff_getElem.1 hg
        have hgi' : gi < cs'.gates.length := by rw [← hG.length_eq]; exact hgi
        have hG' := (List.forall₂_iff_get.1 hG).2 gi hgi hgi'
        simp only [List.get_eq_getElem] at hG'
        obtain ⟨pi, hpi, rfl⟩ := List.mem_iff_getElem.1 he
        have hpi' : pi < cs'.gates[gi].length := by rw [← hG'.length_eq]; exact hpi
        have hE := (List.forall₂_iff_get.1 hG').2 pi hpi hpi'
        simp only [List.get_eq_getElem] at hE
        exact (hgate _ _ hE ((hi.gates _ hg).2 _ he) j hj).1 (h1 j hj _ (List.mem_flatten.2
          ⟨_, List.getElem_mem hgi', List.getElem_mem hpi'⟩))
      · intro l hl j hj
        obtain ⟨li, hli, rfl⟩ := List.mem_iff_getElem.1 hl
        have hli' : li < cs'.lookups.length := by rw [← hL.length_eq]; exact hli
        have hL' := (List.forall₂_iff_get.1 hL).2 li hli hli'
        simp only [List.get_eq_getElem] at hL'
        have hc := hi.lookups _ hl
        obtain ⟨j', hj', hx⟩ := h3 _ (List.getElem_mem hli') j (by rw [hbf]; exact hj)
        rw [hbf] at hj'
        refine ⟨j', hj', ?_⟩
        rw [← hexpr _ _ hL'.1 (fun e he => (hc.2.1 e he).1) j (by omega),
          ← hexpr _ _ hL'.2 (fun e he => (hc.2.2 e he).1) j' (by omega)]
        exact hx
      · intro lc lr rc rr ho hl hr hlr hrr
        rw [f1] at h2
        obtain ⟨li, hli⟩ := Mock.position_of_mem hl
        obtain ⟨ri, hri⟩ := Mock.position_of_mem hr
        have hli' := Copy.position_some hli
        have hri' := Copy.position_some hri
        have := h2 (li, ⟨lr, by omega⟩) (ri, ⟨rr, by omega⟩) (requested_iff.2
          ⟨lc, lr, rc, rr, ho, hlr, hrr, ⟨hli'.1, hli'.2, rfl⟩, ⟨hri'.1, hri'.2, rfl⟩⟩)
        unfold Verif.Permutation.cellVal at this
        dsimp only at this
        have k1 : cs.permutation[li] = lc := hli'.1
        have k2 : cs.permutation[ri] = rc := hri'.1
        rw [k1, k2, colValues_cell, colValues_cell] at this
        · exact this
        · intro hk; have := h.perm hr; rw [hk] at this; rw [hfl]; exact this
        · intro hk; have := h.perm hl; rw [hk] at this; rw [hfl]; exact this
    · rintro ⟨h1, h2, h3⟩
      refine ⟨?_, ?_, ?_⟩
      · intro j hj e he
        obtain ⟨g, hg, he⟩ := List.mem_flatten.1 he
        obtain ⟨gi, hgi, rfl⟩ := List.mem_iff_getElem.1 hg
        have hgi' : gi < cs.gates.length := by rw [hG.length_eq]; exact hgi
        have hG' := (List.forall₂_iff_get.1 hG).2 gi hgi' hgi
        simp only [List.get_eq_getElem] at hG'
        obtain ⟨pi, hpi, rfl⟩ := List.mem_iff_getElem.1 he
        have hpi' : pi < cs.gates[gi].length := by rw [hG'.length_eq]; exact hpi
        have hE := (List.forall₂_iff_get.1 hG').2 pi hpi' hpi
        simp only [List.get_eq_getElem] at hE
        have hg' := List.getElem_mem hgi'
        exact (hgate _ _ hE ((hi.gates _ hg').2 _ (List.getElem_mem hpi')) j hj).2
          (h1 _ hg' _ (List.getElem_mem hpi') j hj)
      · rw [f1]
        intro a b hab
        obtain ⟨lc, lr, rc, rr, ho, hlr, hrr, ⟨a1, -, a3⟩, b1, -, b3⟩ := requested_iff.1 hab
        have m1 : lc ∈ cs.permutation := by rw [← a1]; exact List.getElem_mem _
        have m2 : rc ∈ cs.permutation := by rw [← b1]; exact List.getElem_mem _
        have := h3 lc lr rc rr ho m1 m2 hlr hrr
        unfold Verif.Permutation.cellVal
        have k1 : cs.permutation[a.1] = lc := a1
        have k2 : cs.permutation[b.1] = rc := b1
        rw [k1, k2, a3, b3, colValues_cell, colValues_cell]
        · exact this
        · intro hk; have := h.perm m2; rw [hk] at this; rw [hfl]; exact this
        · intro hk; have := h.perm m1; rw [hk] at this; rw [hfl]; exact this
      · intro l hl j hj
        rw [hbf] at hj ⊢
        obtain ⟨li, hli, rfl⟩ := List.mem_iff_getElem.1 hl
        have hli' : li < cs.lookups.length := by rw [hL.length_eq]; exact hli
        have hL' := (List.forall₂_iff_get.1 hL).2 li hli' hli
        simp only [List.get_eq_getElem] at hL'
        have hl' := List.getElem_mem hli'
        have hc := hi.lookups _ hl'
        obtain ⟨j', hj', hx⟩ := h2 _ hl' j hj
        refine ⟨j', hj', ?_⟩
        rw [hexpr _ _ hL'.1 (fun e he => (hc.2.1 e he).1) j (by omega),
          hexpr _ _ hL'.2 (fun e he => (hc.2.2 e he).1) j' (by omega)]
        exact hx

/-- Key generation gets that far exactly when there are enough rows and every selector enabled on a
usable row exists. -/
theorem assemble_total {cs : Cs F} {n : ℕ} {simple : ℕ → Bool} (h : Configured cs n simple)
    (ops : List (Op F)) : assemble cs n ops ≠ none ↔
      cs.minimumRows ≤ n ∧ SelectorsOk (n - (cs.blindingFactors + 1)) cs.numSelectors ops := by
  rw [← (keygen_run cs n ops).2]
  unfold assemble
  split_ifs with hmin
  · simp only [ne_eq, not_true_eq_false, false_iff, not_and]; omega
  rcases hs : runOps Keygen.step (Keygen.init cs n) ops with _ | s
  · simp
  have hs' := (keygen_run cs n ops).1 s hs
  subst hs'
  obtain ⟨cs₁, polys₁, smap₁, hcomp, -, hpl, -⟩ := Selectors.compress_spec cs
    h.reach h.built h.fixed (Keygen.after cs n ops).selectors (by simp [Keygen.after, grid]) n
    (by simp [Keygen.after, grid]) simple h.flagG h.flagL h.char
  rw [Option.bind_some, Verif.Assigned.batchInvertAssigned_eq, Option.bind_some, hcomp,
    Option.bind_some]
  dsimp only
  rw [if_pos hpl]
  simp only [ne_eq, reduceCtorEq, not_false_eq_true, and_true, true_iff]
  omega

end Verif.Link
