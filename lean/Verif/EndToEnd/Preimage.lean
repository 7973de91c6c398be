import Verif.EndToEnd.Alike
import Verif.EndToEnd.Exists
import Verif.P128.Props

/-!
# A whole circuit: the preimage of a Poseidon hash (C83)

The circuit of halo2_gadgets/benches/poseidon.rs, from its regions to proofs.
-/

namespace Verif.EndToEnd.Preimage

open Verif.Cs (Cs Column Kind)
open Verif.Domain (Domain Consts)
open Verif.ExprEval (Cols rotRow)
open Verif.Floor (ROp COp Owner)
open Verif.Layout
open Verif.Link
open Verif.Mock (assignment cellVal)
open Verif.Region (Grid Gates LookupArg SatLookup Honest M ACell assignRegion tabulate assignAdvice
  Consistent Within)
open Verif.Rows
open Verif.Protocol Verif.Sound
open Verif.Msm Verif.Transcript Polynomial
open Verif.Pow5 (Config Good)
open Verif.Poseidon (Spec)

/-! ### The gates are polynomials -/

section Poly

variable {C S F : Type} [Field F] {r : ℕ} {Q : C → ℤ → Prop}

theorem poly_pow5 {d : ℕ} {f : (C → ℤ → F) → F} (h : Poly Q d f) :
    Poly Q (5 * d) fun q => Pow5.pow5 (f q) :=
  (((h.mul h).mul (h.mul h)).mul h).mono (by omega)

theorem poly_reduceAdd {T : Type} {d : ℕ} (f : T → (C → ℤ → F) → F) (h : ∀ a, Poly Q d (f a)) :
    ∀ l : List T, Poly Q d fun q => Pow5.reduceAdd (l.map fun a => f a q)
  | [] => (Poly.const 0).mono (Nat.zero_le _)
  | a :: l => by
    have := Poly.foldl_add (Q := Q) (d := d) (fun (b : T) q acc => acc + f b q)
      (fun b g hg => (hg.add (h b)).mono (by simp)) l (f a) (h a)
    simpa only [Pow5.reduceAdd, List.map_cons, List.foldl_map] using this

theorem polys_map {T : Type} {D : ℕ} (l : List T) (hl : l ≠ []) (f : T → (C → ℤ → F) → F)
    (h : ∀ a, Poly Q D (f a)) : Polys Q D fun q => l.map fun a => f a q :=
  ⟨l.map f, by simpa using hl, by
    intro g hg
    obtain ⟨a, -, rfl⟩ := List.mem_map.1 hg
    exact h a, by simp [Function.comp_def]⟩

/-- The gates of the Poseidon chip read the state at the rotations -1, 0 and 1 and the other columns
at 0. -/
theorem pow5_poly {cfg : Config C S r} (P : Spec F (r + 1)) (hr : 0 < r)
    (hs : ∀ i, Near Q (cfg.state i)) (hp : Q cfg.partialSbox 0) (ha : ∀ i, Q (cfg.rcA i) 0)
    (hb : ∀ i, Q (cfg.rcB i) 0) : ∀ g ∈ Pow5.gates cfg P, Polys Q 5 g.2 := by
  have s0 : ∀ i, Q (cfg.state i) 0 := fun i => (hs i).1
  have s1 : ∀ i, Q (cfg.state i) 1 := fun i => (hs i).2.1
  have sm : ∀ i, Q (cfg.state i) (-1) := fun i => (hs i).2.2
  have hn : ∀ n, 0 < n → List.finRange n ≠ [] := by
    intro n hn h
    have := congrArg List.length h
    simp at this
    omega
  have hmid : ∀ i, Poly Q 1 fun q : C → ℤ → F => Pow5.mid cfg P q i := by
    intro i
    exact Poly.foldl_add (fun (k : Fin r) q acc =>
      acc + (q (cfg.state k.succ) 0 + q (cfg.rcA k.succ) 0) * P.mds i k.succ)
      (fun k g hg => (hg.add (((Poly.query (s0 _)).add (.query (ha _))).mul (.const _))).mono (by simp))
      _ _ (((Poly.query hp).mul (.const _)).mono (by simp))
  have hnext : ∀ i, Poly Q 1 fun q : C → ℤ → F => Pow5.nextState cfg P q i := by
    intro i
    exact poly_reduceAdd (fun (k : Fin (r + 1)) q => q (cfg.state k) 1 * P.mdsInv i k)
      (fun k => ((Poly.query (s1 k)).mul (.const _)).mono (by simp)) _
  intro g hg
  simp only [Pow5.gates, List.mem_cons, List.not_mem_nil, or_false] at hg
  rcases hg with rfl | rfl | rfl
  · refine polys_map _ (hn _ (by omega)) (fun nextIdx q =>
      Pow5.reduceAdd ((List.finRange (r + 1)).map fun idx =>
        Pow5.pow5 (q (cfg.state idx) 0 + q (cfg.rcA idx) 0) * P.mds nextIdx idx)
        - q (cfg.state nextIdx) 1) fun i => ?_
    exact ((poly_reduceAdd (d := 5) (fun (idx : Fin (r + 1)) q =>
      Pow5.pow5 (q (cfg.state idx) 0 + q (cfg.rcA idx) 0) * P.mds i idx) (fun k =>
      ((poly_pow5 ((Poly.query (s0 k)).add (.query (ha k)))).mul (.const _)).mono (by simp)) _).sub
      (.query (s1 i))).mono (by simp)
  · refine Polys.append (Polys.cons (d := 5) ?_ le_rfl (Polys.one (d := 5) ?_ le_rfl))
      (polys_map _ (hn _ hr) _ fun i => ?_)
    · exact ((poly_pow5 ((Poly.query (s0 0)).add (.query (ha 0)))).sub (.query hp)).mono (by simp)
    · exact ((poly_pow5 ((hmid 0).add (.query (hb 0)))).sub (hnext 0)).mono (by simp)
    · exact (((hmid i.succ).add (.query (hb i.succ))).sub (hnext i.succ)).mono (by simp)
  · refine Polys.append (polys_map _ (hn _ hr) (fun (idx : Fin r) q =>
      q (cfg.state idx.castSucc) (-1) + q (cfg.state idx.castSucc) 0 - q (cfg.state idx.castSucc) 1)
      fun i => ?_) (Polys.one (d := 1) ?_ (by omega))
    · exact (((Poly.query (sm _)).add (.query (s0 _))).sub (.query (s1 _))).mono (by simp)
    · exact ((Poly.query (sm _)).sub (.query (s1 _))).mono (by simp)

end Poly

/-! ### The regions -/

section Regions

variable {C S F : Type} [Field F] {r : ℕ}

/-- `HashCircuit::synthesize` up to the last call: benches/poseidon.rs 79-109.  The message has as
many words as the rate, `input` are the first columns of the state (69). -/
def synthesize (cfg : Config C S r) (P : Spec F (r + 1)) (message : Fin r → F) :
    M C S F (ACell C F) := do
  let msg ← assignRegion fun reg => tabulate r fun i =>
    assignAdvice reg (cfg.state i.castSucc) 0 (message i)
  Pow5.hash cfg P (List.ofFn msg)

theorem synthesize_ok [DecidableEq C] [DecidableEq S] {cfg : Config C S r} {P : Spec F (r + 1)}
    (h : Good cfg P) (hr : 0 < r) (message : Fin r → F) :
    ∃ out n ops, synthesize cfg P message 0 = some (out, n, ops) ∧ (∃ G : Grid C F, Honest G ops) ∧
      Poseidon.hash P r (List.ofFn message) = some out.value ∧
      ∀ G : Grid C F,
        (Region.Sat (Pow5.gates cfg P) G ops →
          Poseidon.hash P r (List.ofFn fun i => G 0 (cfg.state i.castSucc) 0) = some (G.at out.cell)) ∧
        (Honest G ops → Region.Sat (Pow5.gates cfg P) G ops ∧ G.at out.cell = out.value) := by
  set msg : Fin r → ACell C F := fun i => ⟨⟨0, cfg.state i.castSucc, ((0 : ℕ) : ℤ)⟩, message i⟩ with hmsg
  obtain ⟨out, n, ops, h1, h2, h3, h4⟩ := Pow5.hash_ok h hr (List.ofFn msg)
    (by
      intro hn
      have := congrArg List.length hn
      simp at this
      omega) 1
  have hrun : (assignRegion fun reg => tabulate r fun i =>
      assignAdvice (S := S) reg (cfg.state i.castSucc) 0 (message i)) 0 =
      some (msg, 1, (List.finRange r).flatMap fun i =>
        [.advice ⟨0, cfg.state i.castSucc, ((0 : ℕ) : ℤ)⟩ (message i)]) :=
    Region.tabulate_run 1 fun i => rfl
  set ops0 : List (Region.Op C S F) := (List.finRange r).flatMap fun i =>
    [.advice ⟨0, cfg.state i.castSucc, ((0 : ℕ) : ℤ)⟩ (message i)] with hops0
  have hmem : ∀ op : Region.Op C S F, op ∈ ops0 →
      ∃ i, op = .advice ⟨0, cfg.state i.castSucc, 0⟩ (message i) := by
    intro op hop
    obtain ⟨i, -, hi⟩ := List.mem_flatMap.1 hop
    exact ⟨i, List.mem_singleton.1 hi⟩
  have hassign : ∀ c v, Region.Assigned ops0 c v → ∃ i, c = ⟨0, cfg.state i.castSucc, 0⟩ ∧ v = message i := by
    rintro c v (hv | hv) <;> obtain ⟨i, hi⟩ := hmem _ hv
    · cases hi
      exact ⟨i, rfl, rfl⟩
    · cases hi
  have hcons0 : Consistent ops0 := by
    intro c v w hv hw
    obtain ⟨i, rfl, rfl⟩ := hassign _ _ hv
    obtain ⟨j, hj, rfl⟩ := hassign _ _ hw
    have := h.cfg.state (Region.Cell.mk.inj hj).2.1
    rw [Fin.castSucc_injective r this]
  have hwithin0 : Within ops0 fun c => c.reg = 0 := by
    intro c v hv
    obtain ⟨i, rfl, -⟩ := hassign _ _ hv
    rfl
  refine ⟨out, n, ops0 ++ ops, ?_, ?_, ?_, fun G => ⟨fun hs => ?_, fun hG => ?_⟩⟩
  · unfold synthesize
    rw [Region.bind_apply, hrun]
    dsimp only
    rw [h1]
  · obtain ⟨G, hG, -⟩ := (hcons0.append h2.consistent hwithin0 h2.within fun c ha hb => by
      omega).exists_honest (fun _ _ _ => 0)
    exact ⟨G, hG⟩
  · rw [← h3, List.map_ofFn]
    rfl
  · have := (h4 G).1 hs.right
    rw [List.map_ofFn] at this
    exact this
  · obtain ⟨s1, s2⟩ := (h4 G).2 hG.right (by
      intro a ha
      obtain ⟨i, rfl⟩ := (List.mem_ofFn' _ _).1 ha
      exact hG.1 _ _ (List.mem_append_left _ (List.mem_flatMap.2 ⟨i, List.mem_finRange i, by simp [hmsg]⟩)))
    refine ⟨Region.Sat.append ⟨?_, ?_, ?_, ?_⟩ s1, s2⟩
    · intro g _ reg row hop
      obtain ⟨i, hi⟩ := hmem _ hop
      cases hi
    · intro a b hop
      obtain ⟨i, hi⟩ := hmem _ hop
      cases hi
    · intro c v hop
      obtain ⟨i, hi⟩ := hmem _ hop
      cases hi
    · intro c v hop
      obtain ⟨i, hi⟩ := hmem _ hop
      cases hi

/-- The calls are in columns of the right kind and in regions the circuit has created. -/
theorem synthesize_makes {ι : C → Column} {cfg : Config C S r} (hk : Kinds ι cfg) (P : Spec F (r + 1))
    {message : Fin r → F} {out : ACell C F} {n : ℕ} {ops : List (Region.Op C S F)}
    (h : synthesize cfg P message 0 = some (out, n, ops)) :
    CellOk n out.cell ∧ ∀ op ∈ ops, Typed ι op ∧ home op < n := by
  have : Makes ι n True (synthesize cfg P message) fun a => CellOk n a.cell := by
    unfold synthesize
    refine .bind (.assignRegion fun reg => .tabulate fun i => .assignAdvice (fun _ => hk.state _)
      fun h => h.2) fun msg => makes_hash hk fun h a ha => ?_
    obtain ⟨i, rfl⟩ := (List.mem_ofFn' _ _).1 ha
    exact h.2 i
  exact (this _ _ _ _ h).2 trivial le_rfl

/-- Two executions make the same calls but for the values of witnesses. -/
theorem synthesize_alike (cfg : Config C S r) (P : Spec F (r + 1)) (m m' : Fin r → F) :
    Alike (synthesize cfg P m) (synthesize cfg P m') SameCell := by
  unfold synthesize
  refine .bind (.assignRegion fun reg => .tabulate fun i => .assignAdvice) fun a b h => alike_hash ?_
  rw [List.forall₂_iff_get]
  refine ⟨by simp, fun i h1 h2 => ?_⟩
  simp only [List.get_eq_getElem, List.getElem_ofFn]
  exact h _

end Regions

/-! ### The layout -/

section Layout

/-- The first region starts on the first row. -/
theorem single_first {V : Type} {constants : List ℕ} {regions : List (List (ROp V))} {s : Floor.Single}
    {calls : List (Owner × COp V)} (h : Floor.single constants regions = .ok (s, calls)) :
    s.regions.getD 0 0 = 0 := by
  have step : ∀ (s s' : Floor.Single) (ops : List (ROp V)) c, s.assignRegion constants ops = .ok (s', c) →
      s'.regions = s.regions ++ [(Floor.shape s.regions.length ops).columns.foldl
        (fun r c => max r (s.columns c)) 0] := by
    intro s s' ops c h
    unfold Floor.Single.assignRegion at h
    simp only [bind, Except.bind] at h
    split at h
    · cases h
    split at h
    · split_ifs at h
      cases h
      rfl
    · split at h
      · cases h
      · cases h
        rfl
  have key : ∀ (l : List (List (ROp V))) (a b : Floor.Single × List (Owner × COp V)),
      (a.1.regions = [] → a.1.columns = fun _ => 0) → a.1.regions.getD 0 0 = 0 →
      l.foldlM (fun acc ops => do
        let (s, calls) ← acc.1.assignRegion constants ops
        pure (s, acc.2 ++ calls)) a = Except.ok b → b.1.regions.getD 0 0 = 0 := by
    intro l
    induction l with
    | nil =>
      intro a b _ h2 h
      cases h
      exact h2
    | cons ops l ih =>
      intro a b h1 h2 h
      rw [List.foldlM_cons] at h
      rcases hs : a.1.assignRegion constants ops with e | ⟨s', c⟩
      · rw [hs] at h
        cases h
      · rw [hs] at h
        have hr := step _ _ _ _ hs
        refine ih _ _ (fun h => ?_) ?_ h
        · simp [hr] at h
        · show s'.regions.getD 0 0 = 0
          rw [hr]
          rcases hn : a.1.regions with _ | ⟨x, xs⟩
          · rw [h1 hn]
            simp only [List.nil_append, List.getD_cons_zero, max_self]
            generalize (Floor.shape _ ops).columns = l
            have : ∀ l : List Floor.RegionColumn, l.foldl (fun r _ => max r 0) 0 = 0 := by
              intro l
              induction l with
              | nil => rfl
              | cons a l ih => exact ih
            exact this l
          · rw [hn] at h2
            simpa using h2
  exact key regions _ _ (fun _ => rfl) rfl h

variable {C S F : Type} {ι : C → Column} {σ : S → ℕ}

theorem home_same {a b : Region.Op C S F} (h : SameOp a b) : home a = home b := by
  cases a <;> cases b <;> simp_all [SameOp, home]

theorem ropOf_same {a b : Region.Op C S F} (h : SameOp a b) : (ropOf ι σ a).Same (ropOf ι σ b) := by
  cases a <;> cases b <;> simp_all [SameOp, ropOf, ROp.Same]

/-- The same calls of gadgets are the same calls of the closures of regions. -/
theorem splitInst_same {m : ℕ} {ops ops' : List (Region.Op C S F)} (h : List.Forall₂ SameOp ops ops')
    (insts : List (Region.Cell C × ℕ × ℕ)) :
    List.Forall₂ (List.Forall₂ ROp.Same) (splitInst ι σ m ops insts) (splitInst ι σ m ops' insts) := by
  refine List.rel_append ?_ ?_
  · unfold split
    rw [List.forall₂_map_left_iff, List.forall₂_map_right_iff, List.forall₂_same]
    intro i _
    rw [List.forall₂_map_left_iff, List.forall₂_map_right_iff]
    induction h with
    | nil => exact .nil
    | cons ho _ ih =>
      rw [List.filter_cons, List.filter_cons, home_same ho]
      split_ifs
      · exact .cons (ropOf_same ho) ih
      · exact ih
  · rw [List.forall₂_map_left_iff, List.forall₂_map_right_iff, List.forall₂_same]
    intro x _
    exact .cons rfl .nil

theorem same_rows {a b : Owner × COp F} (h : Floor.SameCall a b) : rowsOf a.2 = rowsOf b.2 := by
  rcases a with ⟨w, a⟩
  rcases b with ⟨w', b⟩
  cases a <;> cases b <;> simp_all [Floor.SameCall, rowsOf]

theorem flatMap_rows {calls calls' : List (Owner × COp F)} (h : List.Forall₂ Floor.SameCall calls calls') :
    calls.flatMap (fun p => rowsOf p.2) = calls'.flatMap fun p => rowsOf p.2 := by
  induction h with
  | nil => rfl
  | cons hab _ ih => rw [List.flatMap_cons, List.flatMap_cons, same_rows hab, ih]

theorem same_describes (simple : ℕ → Bool) {a b : Owner × COp F} (h : Floor.SameCall a b) :
    describes (backend simple a.2) = describes (backend simple b.2) ∧
      (describes (backend simple a.2) = true → backend simple a.2 = backend simple b.2) := by
  rcases a with ⟨w, a⟩
  rcases b with ⟨w', b⟩
  cases a <;> cases b <;> simp_all [Floor.SameCall, backend, describes]

/-- The same calls of the planner describe the same circuit. -/
theorem sameCircuit_of {simple : ℕ → Bool} {tc : ℕ} {tbl : List F} {calls calls' : List (Owner × COp F)}
    (h : List.Forall₂ Floor.SameCall calls calls') :
    SameCircuit (backends simple tc tbl calls) (backends simple tc tbl calls') := by
  unfold SameCircuit backends
  rw [List.filter_append, List.filter_append]
  congr 1
  induction h with
  | nil => rfl
  | cons ho _ ih =>
    obtain ⟨h1, h2⟩ := same_describes simple ho
    rw [List.map_cons, List.map_cons, List.filter_cons, List.filter_cons, ← h1, ih]
    split_ifs with hd
    · rw [h2 hd]
    · rfl

end Layout

/-! ### The circuit -/

/-- The columns of the circuit: the state, the column for the partial S-box, the round constants, and
the instance. -/
abbrev Col (r : ℕ) : Type := {c : Column // HasCol (r + 2) (2 * r + 2) 1 c}

/-- `HashCircuit::configure`: benches/poseidon.rs 56-77, with the numbering of columns and selectors
of `ConstraintSystem` (halo2_proofs/src/plonk/circuit.rs 1349-1400) and the order in which
`Pow5Chip::configure` asks for selectors (pow5.rs 80-82). -/
def config (r : ℕ) : Config (Col r) (Fin 3) r where
  state i := ⟨⟨.advice, i⟩, by have := i.isLt; show (i : ℕ) < r + 2; omega⟩
  partialSbox := ⟨⟨.advice, r + 1⟩, by show r + 1 < r + 2; omega⟩
  rcA i := ⟨⟨.fixed, i⟩, by have := i.isLt; show (i : ℕ) < 2 * r + 2; omega⟩
  rcB i := ⟨⟨.fixed, r + 1 + i⟩, by have := i.isLt; show r + 1 + (i : ℕ) < 2 * r + 2; omega⟩
  sFull := 0
  sPartial := 1
  sPadAndAdd := 2

theorem config_ok (r : ℕ) : (config r).Ok := by
  constructor <;> simp only [config, Function.Injective, Subtype.mk.injEq, Column.mk.injEq, ne_eq, Fin.ext_iff,
    reduceCtorEq, true_and, false_and, not_false_eq_true, implies_true, imp_self] <;>
    first
      | (intro i j h; omega)
      | (intro i; have := i.isLt; omega)
      | decide

theorem config_kinds (r : ℕ) : Kinds (Subtype.val : Col r → Column) (config r) :=
  ⟨fun _ => rfl, rfl, fun _ => rfl, fun _ => rfl⟩

variable {F : Type} [Field F] {r : ℕ}

/-- The calls on the backend of `HashCircuit::synthesize` (benches/poseidon.rs 79-109) under the
single pass planner, with the output constrained to the first cell of the instance (108); constants
are in the first column of `rc_b` (67). -/
def execute (P : Spec F (r + 1)) (message : Fin r → F) : Option (List (Op F)) := do
  let (out, n, ops) ← synthesize (config r) P message 0
  let (_, calls) ← (Floor.single [r + 1]
    (splitInst Subtype.val Fin.val n ops [(out.cell, 0, 0)])).toOption
  some (backends (fun _ => true) (2 * r + 2) [] calls)

/-- The columns the constraint system has. -/
def allColumns (r : ℕ) : List Column :=
  (List.range (r + 2)).map (⟨.advice, ·⟩) ++ (List.range (2 * r + 2)).map (⟨.fixed, ·⟩) ++ [⟨.inst, 0⟩]

theorem mem_allColumns (c : Column) : c ∈ allColumns r ↔ HasCol (r + 2) (2 * r + 2) 1 c := by
  rcases c with ⟨_ | _ | _, i⟩ <;> simp [allColumns, HasCol]

/-- A constraint system with the gates of the chip.  Simplification: equality is enabled on all
columns, and all advice columns are queried at the rotations -1, 0 and 1; `configure` enables it on
the state, `rc_b` and the instance only and queries what the gates need. -/
theorem exists_cs (P : Spec F (r + 1)) (hr : 0 < r) :
    ∃ cs : Cs F, Layout.Ready (r + 2) (2 * r + 2) 1 3 1 5 (fun _ => true) cs ∧
      (∀ c, HasCol (r + 2) (2 * r + 2) 1 c → c ∈ cs.permutation) ∧
      cs.permutation.length ≤ 3 * r + 5 ∧ cs.lookups = [] ∧
      ∀ n usable (t : Cols F), usable ≤ n →
        Implements Subtype.val Fin.val (Pow5.gates (config r) P) [] cs n usable t := by
  obtain ⟨cs, h1, h2, -, h4⟩ := exists_configured (na := r + 2) (nf := 2 * r + 2) (ni := 1) (ns := 3)
    (R := 1) (D := 5) (simple := fun _ => true) (ι := (Subtype.val : Col r → Column)) (σ := Fin.val)
    (P := fun _ : Fin 3 => False) (Pow5.gates (config r) P) [] (allColumns r) [r + 1]
    (fun g _ => g.1.isLt)
    (pow5_poly P hr (fun i => ⟨⟨by omega, by decide⟩, ⟨by omega, by decide⟩, ⟨by omega, by decide⟩⟩)
      ⟨by omega, by decide⟩ (fun i => ⟨by omega, rfl⟩) (fun i => ⟨by omega, rfl⟩))
    (by simp) (by simp) (fun c hc => (mem_allColumns c).1 hc) (by simp; omega)
  refine ⟨cs, h1, fun c hc => (h2 c).2 (.inl ((mem_allColumns c).2 hc)), ?_, ?_,
    fun n usable t hu => h4 n usable t hu (by simp)⟩
  · have hsub : cs.permutation ⊆ allColumns r := by
      intro c hc
      rw [mem_allColumns]
      have := (Cs.reach_inv h1.reach).permQueried c hc
      rcases c with ⟨_ | _ | _, i⟩
      · exact ((h1.advice _ _).1 this).1
      · exact ((h1.fixed _ _).1 this).1
      · exact ((h1.inst _ _).1 this).1
    refine ((Cs.reach_inv h1.reach).perm.subperm hsub).length_le.trans ?_
    simp only [allColumns, List.length_append, List.length_map, List.length_range, List.length_singleton]
    omega
  · have h := (h4 0 0 ⟨fun _ _ => 0, fun _ _ => 0, fun _ _ => 0⟩ le_rfl (by simp))
    by_contra hne
    obtain ⟨l, hl⟩ := List.exists_mem_of_ne_nil _ hne
    obtain ⟨l', hl', -⟩ := h.lookup_of l hl
    simp at hl'

/-- Every message has an execution, with the same regions on the same rows and describing the same
circuit. -/
theorem exists_circuit [LinearOrder F] {P : Spec F (r + 1)} (h : Good (config r) P) (hr : 0 < r) :
    ∃ (cs : Cs F) (starts : List ℕ) (N : ℕ),
      Layout.Ready (r + 2) (2 * r + 2) 1 3 1 5 (fun _ => true) cs ∧
      cs.permutation.length ≤ 3 * r + 5 ∧ cs.lookups = [] ∧ starts.getD 0 0 = 0 ∧
      ∀ message : Fin r → F, ∃ (out : Region.ACell (Col r) F) (n : ℕ)
        (ops : List (Region.Op (Col r) (Fin 3) F)) (calls : List (Owner × COp F)) (rops : List (Op F)),
        CellOk n out.cell ∧ execute P message = some rops ∧
        (∀ u, SelectorsOk u 3 rops) ∧
        (∀ message' rops', execute P message' = some rops' → SameCircuit rops rops') ∧
        (∀ G : Grid (Col r) F, Region.Sat (Pow5.gates (config r) P) G ops →
          Poseidon.hash P r (List.ofFn fun i => G 0 ((config r).state i.castSucc) 0)
            = some (G.at out.cell)) ∧
        (∀ G : Grid (Col r) F, Honest G ops →
          Poseidon.hash P r (List.ofFn message) = some (G.at out.cell)) ∧
        ∀ n' inst, N ≤ n' →
          Poseidon.hash P r (List.ofFn message) = some ((inst.getD 0 []).getD 0 0) →
          Execution Subtype.val Fin.val (Pow5.gates (config r) P) [] (· = 2 * r + 2) [r + 1] cs n' inst
            rops ops (splitInst Subtype.val Fin.val n ops [(out.cell, 0, 0)]) starts calls := by
  obtain ⟨cs, c1, c2, c3, c4, c5⟩ := exists_cs P hr
  have run : ∀ m, ∃ out n ops s calls, synthesize (config r) P m 0 = some (out, n, ops) ∧
      Floor.single [r + 1] (splitInst (Subtype.val : Col r → Column) (Fin.val : Fin 3 → ℕ) n ops
        [(out.cell, 0, 0)]) = .ok (s, calls) := by
    intro m
    obtain ⟨out, n, ops, h1, -⟩ := synthesize_ok h hr m
    obtain ⟨s, calls, h2⟩ := exists_plan (ι := (Subtype.val : Col r → Column)) (σ := (Fin.val : Fin 3 → ℕ))
      (m := n) (ops := ops) (k₀ := r + 1) (insts := [(out.cell, 0, 0)])
      (by simpa using (synthesize_makes (config_kinds r) P h1).1.2)
    exact ⟨out, n, ops, s, calls, h1, h2⟩
  have exec : ∀ m out n ops s calls, synthesize (config r) P m 0 = some (out, n, ops) →
      Floor.single [r + 1] (splitInst (Subtype.val : Col r → Column) (Fin.val : Fin 3 → ℕ) n ops
        [(out.cell, 0, 0)]) = .ok (s, calls) →
      execute P m = some (backends (fun _ => true) (2 * r + 2) [] calls) := by
    intro m out n ops s calls h1 h2
    simp [execute, h1, h2, Except.toOption]
  have same : ∀ m m' out n ops s calls out' n' ops' s' calls',
      synthesize (config r) P m 0 = some (out, n, ops) →
      Floor.single [r + 1] (splitInst (Subtype.val : Col r → Column) (Fin.val : Fin 3 → ℕ) n ops
        [(out.cell, 0, 0)]) = .ok (s, calls) →
      synthesize (config r) P m' 0 = some (out', n', ops') →
      Floor.single [r + 1] (splitInst (Subtype.val : Col r → Column) (Fin.val : Fin 3 → ℕ) n' ops'
        [(out'.cell, 0, 0)]) = .ok (s', calls') →
      s = s' ∧ List.Forall₂ Floor.SameCall calls calls' := by
    intro m m' out n ops s calls out' n' ops' s' calls' h1 h2 h3 h4
    rcases synthesize_alike (config r) P m m' 0 with ⟨h, -⟩ | ⟨a, b, n'', o, o', g1, g2, g3, g4⟩
    · rw [h1] at h
      cases h
    rw [h1] at g1
    cases g1
    rw [h3] at g2
    cases g2
    have : Inhabited F := ⟨0⟩
    have hs := Floor.single_same [r + 1] (splitInst_same (ι := (Subtype.val : Col r → Column))
      (σ := (Fin.val : Fin 3 → ℕ)) (m := n) g4 [(out.cell, 0, 0)])
    rw [show out'.cell = out.cell from g3.symm] at h4
    rw [h2, h4] at hs
    exact hs
  obtain ⟨out₀, n₀, ops₀, s₀, calls₀, a1, a2⟩ := run 0
  obtain ⟨B, hB⟩ := exists_bound (calls₀.flatMap fun p => rowsOf p.2)
  refine ⟨cs, s₀.regions, B + (cs.blindingFactors + 1), c1, c3, c4, single_first a2, fun m => ?_⟩
  obtain ⟨out, n, ops, s, calls, r1, r2⟩ := run m
  obtain ⟨rfl, hcalls⟩ := same _ _ _ _ _ _ _ _ _ _ _ _ a1 a2 r1 r2
  obtain ⟨out', n', ops', h1, h2, h3, h4⟩ := synthesize_ok h hr m
  rw [r1] at h1
  cases h1
  obtain ⟨m1, m2⟩ := synthesize_makes (config_kinds r) P r1
  have hrows : ∀ w p, (w, p) ∈ calls → ∀ x ∈ rowsOf p, x < B := by
    intro w p hp x hx
    refine hB x ?_
    rw [flatMap_rows hcalls]
    exact List.mem_flatMap.2 ⟨(w, p), hp, hx⟩
  obtain ⟨e1, e2⟩ := execution_of (simple := fun _ => true) (tc := 2 * r + 2) (ns := 3) (cs := cs)
    (tbl := []) (lookups := []) (gates := Pow5.gates (config r) P) (fun c : Col r => c.2)
    Subtype.val_injective Fin.val_injective (fun s : Fin 3 => s.isLt) (fun op h => (m2 op h).1)
    (fun op h => (m2 op h).2) (fun c hc => by
      have := c.2
      rw [hc] at this
      exact absurd this (by simp [HasCol])) (by omega) (by omega) c2 (by simp) (by simp)
    (fun n usable t hu _ => c5 n usable t hu) (by simp) [(out.cell, 0, 0)]
    (by simpa using ⟨m1.2, m1.1⟩) h2 (fun G hG => ⟨((h4 G).2 hG).1, by simp⟩) r2 hrows
  refine ⟨out, n, ops, calls, _, m1, exec _ _ _ _ _ _ r1 r2, e1, ?_, fun G => (h4 G).1,
    fun G hG => by rw [((h4 G).2 hG).2]; exact h3, ?_⟩
  · intro m' rops' hm'
    obtain ⟨out', n', ops', s', calls', q1, q2⟩ := run m'
    rw [exec _ _ _ _ _ _ q1 q2] at hm'
    cases hm'
    exact sameCircuit_of (same _ _ _ _ _ _ _ _ _ _ _ _ r1 r2 q1 q2).2
  · intro n' inst hn hh
    refine e2 n' inst (by simpa using hn) fun G hG x hx => ?_
    rw [List.mem_singleton] at hx
    subst hx
    rw [((h4 G).2 hG).2]
    rw [h3] at hh
    exact Option.some.inj hh

/-! ### The property -/

variable {K A : Type} [LinearOrder F] [Field K] [LinearOrder K] [AddCommGroup A] [Module F A]

/-- **C83**: there is a constraint system with the gates of the chip such that, for every number of
rows from some point on and all parameters and constants of the curves:
* key generation succeeds, whatever message the circuit has when the keys are made;
* for any messages with the given hashes, an honest proof for the hashes as instances, if the prover
  finishes one and no challenge is exceptional, is accepted;
* sets of bad challenges are fixed before each challenge, of bounded size; whenever the verifier
  accepts a proof for some hashes as instances and no challenge is bad, a relation between generators
  of the parameters has been found, or each of the hashes is the hash of what the proof commits to in
  the first row of the columns of the message. -/
theorem preimage [DecidableEq A] {P : Spec F (r + 1)} (h : Good (config r) P) (hr : 0 < r)
    (hchar : ∀ i : ℕ, 0 < i → i ≤ 9 → (i : F) ≠ 0) :
    ∃ (cs : Cs F) (N : ℕ), (∀ message, ∃ rops, execute P message = some rops) ∧
      ∀ (k : ℕ) (_ : N ≤ 2 ^ k) (threads threads' T : ℕ) (c : Consts F) (hasher : Bytes → A)
        (pr : Params A) (e : Enc F K A) (delta repr : F), c.Valid → threads ≠ 0 → threads' ≠ 0 →
        Commitment.Params.new threads' c hasher k = some pr → k + 3 ≤ c.S → e.Valid →
        IsPrimitiveRoot delta T → Nat.Coprime (2 ^ k) T → 3 * r + 5 ≤ T →
      ∀ message₀ kops, execute P message₀ = some kops →
      ∃ keys, keygen threads c pr delta repr cs kops = some keys ∧
        (∀ (runs : List ((Fin r → F) × F × List (Op F))) (circuits : List (List (List F))),
          List.Forall₂ (fun q a => Poseidon.hash P r (List.ofFn q.1) = some q.2.1 ∧
            execute P q.1 = some q.2.2 ∧ adviceOf keys.cs (2 ^ k) [[q.2.1]] q.2.2 = some a)
            runs circuits →
          ∀ (rng : Rng F) (st' : WState F),
            createProof threads e pr keys.domain keys.cs delta repr rng keys.pk circuits
              (runs.map fun q => [[q.2.1]]) W.init = .ok ((), st') →
            Lucky keys.domain keys.cs delta keys.pk.fixedValues
              (witness keys.domain.n keys.cs.blindingFactors rng circuits (runs.map fun q => [[q.2.1]]))
              st'.trace.reverse →
            ∀ rest : Bytes, verifySingle e pr keys.domain keys.cs delta keys.vk
              (runs.map fun q => [[q.2.1]]) (R.init (st'.out ++ rest)) =
                .ok ((), ⟨st'.absorbed, rest, st'.trace⟩)) ∧
        ∀ hashes : List F, ∃ bad : List (List (Comb F)) → List (Item F A (Comb F)) → Finset F,
          (∀ polys l, (bad polys l).card ≤
            proofBound keys.domain keys.cs hashes.length (challenges l)) ∧
          ∀ rep, Algebraic pr rep → ∀ (hash : Hash F) (st st' : RState F),
            verifySingle (withHash e hash) pr keys.domain keys.cs delta keys.vk
              (hashes.map fun x => [[x]]) st = .ok ((), st') →
            ∃ inst advice st₁ gd m l,
              verifierColumns (withHash e hash) pr keys.cs keys.vk.repr (hashes.map fun x => [[x]]) st
                = .ok ((inst, advice), st₁) ∧
              verifyGuard (withHash e hash) pr keys.domain keys.cs delta keys.vk
                (hashes.map fun x => [[x]]) MSM.new st = .ok (gd, st') ∧
              gd.useChallenges pr = some m ∧
              Logged (withHash e hash) rep st₁.absorbed l st'.absorbed ∧
              advice.length = hashes.length ∧ (∀ a ∈ advice, a.length = r + 2) ∧
              (Avoids (bad (advice.map fun a => a.map rep)) l →
                Relation pr (relOf e.toCoords rep m) ∨
                (∃ (v : List F) (C : A) (Q : F[X]),
                  v ∈ publicColumns keys.domain keys.cs delta keys.pk.fixedValues
                    (kops.filterMap (copyCall (2 ^ k - (cs.blindingFactors + 1))))
                    (hashes.map fun x => [[x]]) ∧
                  pr.commitLagrange v 1 = some C ∧ Q.degree < (keys.domain.n : WithBot ℕ) ∧
                  column keys.domain (Q, 0, 1) = v ∧ Relation pr (rep C - (Q, 0, 1))) ∨
                ∀ q ∈ advice.zip hashes,
                  Poseidon.hash P r (List.ofFn fun i : Fin r =>
                    (((q.1.map rep).map (column keys.domain)).getD i []).getD 0 0) = some q.2) := by
  obtain ⟨cs, starts, N, c1, c2, c3, c4, c5⟩ := exists_circuit h hr
  refine ⟨cs, N + cs.minimumRows, fun m => ?_, ?_⟩
  · obtain ⟨_, _, _, _, rops, -, h1, -⟩ := c5 m
    exact ⟨rops, h1⟩
  intro k hk threads threads' T c hasher pr e delta repr hc ht ht' hpr hkS he hdelta hT hTr m₀ kops hkops
  have hconf : Configured cs (2 ^ k) (fun _ => true) := c1.configured Nat.one_le_two_pow hchar
  obtain ⟨out, n, ops, calls, rops, d1, d2, d3, d4, d5, -, d6⟩ := c5 m₀
  rw [hkops] at d2
  cases d2
  have hkeys : ∃ keys, keygen threads c pr delta repr cs kops = some keys := by
    rw [← Option.ne_none_iff_exists']
    refine (keygen_total hc ht ht' hpr hconf delta repr _).2 ⟨⟨?_, by omega, ?_⟩, by omega, ?_⟩
    · unfold Cs.degree
      simp [Cs.permRequiredDegree]
    · calc 2 ^ k * (cs.degree - 1) ≤ 2 ^ k * 2 ^ 3 :=
          Nat.mul_le_mul_left _ (by have := c1.degree; omega)
        _ = 2 ^ (k + 3) := (pow_add 2 k 3).symm
        _ ≤ 2 ^ c.S := Nat.pow_le_pow_right (by decide) hkS
    · rw [c1.numSelectors]
      exact d3 _
  obtain ⟨keys, hkeys⟩ := hkeys
  refine ⟨keys, hkeys, ?_, ?_⟩
  · intro runs circuits hruns rng st' hprove hlucky rest
    have := honest_circuit (ι := (Subtype.val : Col r → Column)) (σ := (Fin.val : Fin 3 → ℕ))
      (gates := Pow5.gates (config r) P) (lookups := []) (tables := (· = 2 * r + 2))
      (constants := [r + 1]) Subtype.val_injective hc ht ht' hpr he hconf (by simp [c3]) hkeys
      (runs.map fun q => ([[q.2.1]], q.2.2)) circuits ?_ rng st'
    · simp only [List.map_map, Function.comp_def] at this
      exact this hprove hlucky rest
    · rw [List.forall₂_map_left_iff]
      refine hruns.imp fun q a hq => ?_
      obtain ⟨out, n, ops, calls, rops, e1, e2, e3, e4, e5, -, e6⟩ := c5 q.1
      rw [hq.2.1] at e2
      obtain rfl := Option.some.inj e2
      refine ⟨d4 _ _ hq.2.1, ⟨by simp [c1.numInstance], ?_⟩, ⟨ops, _, starts, calls,
        e6 _ _ (by omega) hq.1⟩, hq.2.2⟩
      intro v hv
      rw [List.mem_singleton] at hv
      subst hv
      show 1 ≤ _
      have : cs.blindingFactors + 1 + 1 + 1 = cs.minimumRows := rfl
      omega
  · intro hashes
    obtain ⟨out', n', ops', s1, s2, s3, -⟩ := synthesize_ok h hr m₀
    obtain ⟨bad, b1, b2⟩ := accepted_circuit hc ht ht' hpr he hconf hdelta hT (c2.trans hTr) hkeys
      (hashes.map fun x => [[x]]) (d6 (2 ^ k) [[out'.value]] (by omega) s3).plan
      (d6 (2 ^ k) [[out'.value]] (by omega) s3).circuit
    refine ⟨bad, fun polys l => by simpa using b1 polys l, fun rep hrep hash st st' hv => ?_⟩
    obtain ⟨inst, advice, st₁, gd, m, l, g1, g2, g3, g4, g5, g6, g7⟩ := b2 rep hrep hash st st' hv
    refine ⟨inst, advice, st₁, gd, m, l, g1, g2, g3, g4, by simpa using g5,
      fun a ha => (g6 a ha).trans c1.numAdvice, fun hav => ?_⟩
    rcases g7 hav with g8 | g8 | g8
    · exact .inl g8
    · exact .inr (.inl g8)
    · refine .inr (.inr fun q hq => ?_)
      obtain ⟨G, hG, hsat, -, hi⟩ := g8 (q.1, [[q.2]]) (by
        rw [List.zip_map_right]
        exact List.mem_map.2 ⟨q, hq, rfl⟩)
      have hl : (split (Subtype.val : Col r → Column) (Fin.val : Fin 3 → ℕ) n ops).length = n := by
        simp [split]
      have hin := hi n [.inst (cellOf Subtype.val out.cell) 0 0] (by
        unfold splitInst
        rw [List.getElem?_append_right (by omega), hl]
        simp) _ _ _ (List.mem_singleton.2 rfl) out.cell (isCell_cellOf d1.1)
      have := d5 G hsat
      rw [hin] at this
      rw [← show ((List.getD [[q.2]] 0 []).getD 0 0) = q.2 from rfl, ← this, hG]
      congr 2
      funext i
      simp only [gridOf, c4, config, cellVal]
      rw [ExprEval.rotRow_zero (by positivity : 0 < 2 ^ k)]
      rfl

/-! ### Case: `P128Pow5T3` -/

theorem fp_good : Good (config 2) P128.fp := P128.fp_good (config_ok 2)

theorem fq_good : Good (config 2) P128.fq := P128.fq_good (config_ok 2)

theorem fp_char (i : ℕ) (hi : 0 < i) (h : i ≤ 9) : (i : ZMod Pasta.pallas) ≠ 0 := by
  rw [Ne, ZMod.natCast_eq_zero_iff]
  intro hd
  have := Nat.le_of_dvd hi hd
  have : 100 < Pasta.pallas := by decide +kernel
  omega

/-- The circuit of the benchmark with width 3 has calls for every message. -/
example [LinearOrder (ZMod Pasta.pallas)] (m : Fin 2 → ZMod Pasta.pallas) :
    ∃ rops, execute P128.fp m = some rops := by
  obtain ⟨_, _, _, _, _, _, _, h⟩ := exists_circuit fp_good (by decide)
  obtain ⟨_, _, _, _, rops, -, h1, -⟩ := h m
  exact ⟨rops, h1⟩

/-- **C83** for width 3 over the Pallas base field: all hypotheses on the hash function hold. -/
theorem exists_preimage_fp [LinearOrder (ZMod Pasta.pallas)] :
    ∃ (cs : Cs (ZMod Pasta.pallas)) (N : ℕ), cs.permutation.length ≤ 11 ∧
      ∀ k, N ≤ 2 ^ k → Configured cs (2 ^ k) (fun _ => true) ∧
        ∀ message kops, execute P128.fp message = some kops →
        ∀ (A : Type) [AddCommGroup A] [Module (ZMod Pasta.pallas) A] (threads threads' : ℕ)
          (c : Consts (ZMod Pasta.pallas)) (hasher : Bytes → A) (pr : Params A)
          (delta repr : ZMod Pasta.pallas), c.Valid → threads ≠ 0 → threads' ≠ 0 →
          Commitment.Params.new threads' c hasher k = some pr → k + 3 ≤ c.S →
          ∃ keys, keygen threads c pr delta repr cs kops = some keys := by
  obtain ⟨cs, starts, N, c1, c2, c3, c4, c5⟩ := exists_circuit fp_good (by decide)
  refine ⟨cs, N + cs.minimumRows, c2, fun k hk => ?_⟩
  have hconf : Configured cs (2 ^ k) (fun _ => true) := c1.configured Nat.one_le_two_pow fp_char
  refine ⟨hconf, ?_⟩
  intro m kops hm A _ _ threads threads' c hasher pr delta repr hc ht ht' hpr hkS
  obtain ⟨out, n, ops, calls, rops, d1, d2, d3, d4, d5, -, d6⟩ := c5 m
  rw [hm] at d2
  obtain rfl := Option.some.inj d2
  rw [← Option.ne_none_iff_exists']
  refine (keygen_total hc ht ht' hpr hconf delta repr _).2 ⟨⟨?_, by omega, ?_⟩, by omega, ?_⟩
  · unfold Cs.degree
    simp [Cs.permRequiredDegree]
  · calc 2 ^ k * (cs.degree - 1) ≤ 2 ^ k * 2 ^ 3 :=
        Nat.mul_le_mul_left _ (by have := c1.degree; omega)
      _ = 2 ^ (k + 3) := (pow_add 2 k 3).symm
      _ ≤ 2 ^ c.S := Nat.pow_le_pow_right (by decide) hkS
  · rw [c1.numSelectors]
    exact d3 _

end Verif.EndToEnd.Preimage
