import Verif.EndToEnd.Props
import Verif.Layout.Configure
import Verif.Layout.Split

/-!
# Circuits for C80 and C81 exist

The hypotheses of C80 and C81 relate four descriptions of one circuit.  For every list of calls of
gadgets there are the other three: closures of regions, what the single pass planner makes of them,
and the calls on the backend, with a lookup table in a column of its own.  Calls of
`Layouter::constrain_instance` (single_pass.rs 153-170) are described as regions without cells that
make them; the planner makes the same copies.
-/

namespace Verif.EndToEnd

open Verif.Assigned (Assigned)
open Verif.Cs (Cs Column Kind)
open Verif.ExprEval (Cols rotRow)
open Verif.Floor (ROp COp Owner RegionColumn constantsOf)
open Verif.Layout
open Verif.Link
open Verif.Mock (assignment cellVal)
open Verif.Region (Grid Gates LookupArg SatLookup Honest)
open Verif.Rows

variable {C S F : Type} [Field F] [LinearOrder F] {ι : C → Column} {σ : S → ℕ}
  {gates : Gates C S F} {ops : List (Region.Op C S F)} {m na nf ni ns R D k₀ tc : ℕ}
  {simple : ℕ → Bool}

/-- The inverse of `ofColumn`. -/
def toColumn : RegionColumn → Column
  | .advice i => ⟨.advice, i⟩
  | .fixed i => ⟨.fixed, i⟩
  | .inst i => ⟨.inst, i⟩
  | .selector i => ⟨.fixed, i⟩

theorem toColumn_ofColumn (c : Column) : toColumn (ofColumn c) = c := by
  rcases c with ⟨_ | _ | _, i⟩ <;> rfl

/-- The call on the backend. -/
def backend (simple : ℕ → Bool) : COp F → Op F
  | .enable s r => .selector ⟨s, simple s⟩ r
  | .advice c r v => .advice c r (some (.trivial v))
  | .fixed c r v => .fixed c r (some (.trivial v))
  | .copy a ra b rb => .copy (toColumn a) ra (toColumn b) rb

/-- Loading a table in column `tc`: the values, and the first one in the rows below. -/
def loadTable (tc : ℕ) (tbl : List F) : List (Op F) :=
  (tbl.zipIdx.map fun p => .fixed tc p.2 (some (.trivial p.1))) ++
    tbl.head?.toList.map fun v => .fill tc tbl.length (some (.trivial v))

/-- The regions of `ops`, and calls of `constrain_instance` of a cell, a column and a row. -/
def splitInst (ι : C → Column) (σ : S → ℕ) (m : ℕ) (ops : List (Region.Op C S F))
    (insts : List (Region.Cell C × ℕ × ℕ)) : List (List (ROp F)) :=
  split ι σ m ops ++ insts.map fun x => [.inst (cellOf ι x.1) x.2.1 x.2.2]

theorem splitInst_getElem? {insts : List (Region.Cell C × ℕ × ℕ)} {i : ℕ} {r : List (ROp F)}
    (h : (splitInst ι σ m ops insts)[i]? = some r) :
    (split ι σ m ops)[i]? = some r ∨
      ∃ x ∈ insts, m ≤ i ∧ r = [.inst (cellOf ι x.1) x.2.1 x.2.2] := by
  have hl : (split ι σ m ops).length = m := by simp [split]
  unfold splitInst at h
  by_cases hi : i < m
  · rw [List.getElem?_append_left (by omega)] at h
    exact .inl h
  · rw [List.getElem?_append_right (by omega)] at h
    obtain ⟨x, hx, rfl⟩ := List.mem_map.1 (List.mem_of_getElem? h)
    exact .inr ⟨x, hx, by omega, rfl⟩

theorem splitInst_describes {insts : List (Region.Cell C × ℕ × ℕ)} (ht : ∀ op ∈ ops, Typed ι op)
    (hm : ∀ op ∈ ops, home op < m) : Describes ι σ ops (splitInst ι σ m ops insts) where
  asked op hop := by
    obtain ⟨i, r, h1, h2⟩ := (split_describes (σ := σ) ht hm).asked op hop
    refine ⟨i, r, ?_, h2⟩
    unfold splitInst
    rw [List.getElem?_append_left (List.getElem?_eq_some_iff.1 h1).1]
    exact h1
  only i r hr o ho hn := by
    rcases splitInst_getElem? hr with h | ⟨x, -, -, rfl⟩
    · exact (split_describes (σ := σ) ht hm).only i r h o ho hn
    · exact absurd (List.mem_singleton.1 ho) (hn _ _ _)

theorem splitInst_causal {insts : List (Region.Cell C × ℕ × ℕ)} (hi : ∀ x ∈ insts, x.1.reg < m) :
    Floor.Causal (splitInst ι σ m ops insts) := by
  intro i r hr o ho cell hcell
  rcases splitInst_getElem? hr with h | ⟨x, hx, hmi, rfl⟩
  · exact split_causal i r h o ho cell hcell
  · rw [List.mem_singleton] at ho
    subst ho
    simp only [Floor.ROp.cells, List.mem_singleton] at hcell
    subst hcell
    have := hi x hx
    show x.1.reg ≤ i
    omega

/-- The calls of the planner, and the table. -/
def backends (simple : ℕ → Bool) (tc : ℕ) (tbl : List F) (calls : List (Owner × COp F)) :
    List (Op F) :=
  (calls.map fun p => backend simple p.2) ++ loadTable tc tbl

/-- The rows a call names. -/
def rowsOf : COp F → List ℕ
  | .enable _ r => [r]
  | .advice _ r _ => [r]
  | .fixed _ r _ => [r]
  | .copy _ ra _ rb => [ra, rb]

theorem exists_bound (l : List ℕ) : ∃ b, ∀ x ∈ l, x < b := by
  induction l with
  | nil => exact ⟨0, by simp⟩
  | cons a l ih =>
    obtain ⟨b, h⟩ := ih
    refine ⟨max (a + 1) b, ?_⟩
    intro x hx
    rcases List.mem_cons.1 hx with rfl | hx
    · exact lt_max_of_lt_left (Nat.lt_succ_self _)
    · exact lt_max_of_lt_right (h x hx)

theorem fixedCells_of {cs : Cs F} {n c r : ℕ} {rops : List (Op F)} {v : F}
    (h : ∀ o ∈ rops, ∀ a, fixedWrite (n - (cs.blindingFactors + 1)) c r o = some a → a.evaluate = v)
    (he : ∃ o ∈ rops, fixedWrite (n - (cs.blindingFactors + 1)) c r o ≠ none) :
    fixedCells cs n rops c r = v := by
  unfold fixedCells lastWrite
  rcases hf : rops.reverse.findSome? (fixedWrite (n - (cs.blindingFactors + 1)) c r) with _ | b
  · obtain ⟨o, ho, hn⟩ := he
    exact absurd (List.findSome?_eq_none_iff.1 hf _ (List.mem_reverse.2 ho)) hn
  · obtain ⟨o, ho, hb⟩ := List.exists_of_findSome?_eq_some hf
    exact h o (List.mem_reverse.1 ho) b hb

/-- The cells of the column of the table. -/
theorem table_cells {tbl : List F} {calls : List (Owner × COp F)}
    (hfix : ∀ w c r v, (w, COp.fixed c r v) ∈ calls → c ≠ tc) {cs : Cs F} {n j : ℕ}
    (hj : j < n - (cs.blindingFactors + 1)) (x : F)
    (hx : if j < tbl.length then tbl[j]? = some x else tbl.head? = some x) :
    fixedCells cs n (backends simple tc tbl calls) tc j = x := by
  refine fixedCells_of ?_ ?_
  · intro o ho a ha
    rcases List.mem_append.1 ho with ho | ho
    · obtain ⟨⟨w, p⟩, hp, rfl⟩ := List.mem_map.1 ho
      cases p with
      | fixed c r v =>
        simp only [backend, fixedWrite] at ha
        split_ifs at ha with hc
        exact absurd hc.1.symm (hfix _ _ _ _ hp)
      | _ => simp [backend, fixedWrite] at ha
    · rcases List.mem_append.1 ho with ho | ho
      · obtain ⟨⟨v, i⟩, hp, rfl⟩ := List.mem_map.1 ho
        simp only [fixedWrite] at ha
        split_ifs at ha with hc
        obtain ⟨-, rfl, -⟩ := hc
        have hv : tbl[j]? = some v := by simpa using List.mk_mem_zipIdx_iff_getElem?.1 hp
        rw [if_pos (List.getElem?_eq_some_iff.1 hv).1, hv] at hx
        cases hx
        cases ha
        rfl
      · obtain ⟨v, hv, rfl⟩ := List.mem_map.1 ho
        simp only [fixedWrite] at ha
        split_ifs at ha with hc
        rw [if_neg (by omega)] at hx
        rw [Option.mem_toList, hx] at hv
        cases hv
        cases ha
        rfl
  · by_cases hl : j < tbl.length
    · rw [if_pos hl] at hx
      refine ⟨.fixed tc j (some (.trivial x)), List.mem_append_right _ (List.mem_append_left _
        (List.mem_map.2 ⟨(x, j), List.mk_mem_zipIdx_iff_getElem?.2 hx, rfl⟩)), ?_⟩
      simp [fixedWrite, hj]
    · rw [if_neg hl] at hx
      refine ⟨.fill tc tbl.length (some (.trivial x)), List.mem_append_right _
        (List.mem_append_right _ (List.mem_map.2 ⟨x, by simp [hx], rfl⟩)), ?_⟩
      simp only [fixedWrite]
      rw [if_pos ⟨trivial, by omega, hj⟩]
      simp

/-- What the calls of the planner are, for the closures of `splitInst`. -/
theorem split_calls {insts : List (Region.Cell C × ℕ × ℕ)} (hin : ∀ x ∈ insts, x.2.1 < ni)
    (hcol : ∀ c, HasCol na nf ni (ι c)) (ht : ∀ op ∈ ops, Typed ι op)
    (hfix : ∀ c, ι c ≠ ⟨.fixed, tc⟩) (hk₀ : k₀ < nf) (hk : k₀ ≠ tc) (hs : ∀ s, σ s < ns)
    {s : Floor.Single} {calls : List (Owner × COp F)}
    (h : Floor.single [k₀] (splitInst ι σ m ops insts) = .ok (s, calls)) :
    (∀ w i r, (w, COp.enable i r) ∈ calls → i < ns) ∧
      (∀ w c r v, (w, COp.fixed c r v) ∈ calls → c ≠ tc) ∧
      ∀ w a ra b rb, (w, COp.copy a ra b rb) ∈ calls → ∃ a' b', a = ofColumn a' ∧ b = ofColumn b' ∧
        HasCol na nf ni a' ∧ HasCol na nf ni b' := by
  obtain ⟨rows, hi⟩ := Floor.single_inv h
  have key : ∀ p ∈ calls, match p.2 with
      | .enable i _ => i < ns
      | .advice _ _ _ => True
      | .fixed c _ _ => c ≠ tc
      | .copy a _ b _ => ∃ a' b', a = ofColumn a' ∧ b = ofColumn b' ∧
        HasCol na nf ni a' ∧ HasCol na nf ni b' := by
    intro p hp
    rcases (hi.mem p).1 hp with ⟨i, r, hr, -, o, ho, l, hl, hpl⟩ | ⟨k, c, row, v, cell, r, h1, -, h3, -, h5⟩
    · rcases splitInst_getElem? hr with hr | ⟨x, hx, -, rfl⟩
      · obtain ⟨-, rfl⟩ := (split_getElem? _ _).1 hr
        obtain ⟨op, hop, rfl⟩ := List.mem_map.1 ho
        have hty := ht op (List.mem_filter.1 hop).1
        cases op with
        | advice c v =>
          simp only [ropOf, Floor.place, Option.bind_eq_bind, Option.bind_eq_some_iff,
            Option.some.injEq] at hl
          obtain ⟨_, -, rfl⟩ := hl
          rw [List.mem_singleton] at hpl
          rw [hpl]
          trivial
        | fixed c v =>
          simp only [ropOf, Floor.place, Option.bind_eq_bind, Option.bind_eq_some_iff,
            Option.some.injEq] at hl
          obtain ⟨_, -, rfl⟩ := hl
          rw [List.mem_singleton] at hpl
          rw [hpl]
          intro he
          refine hfix c.col ?_
          rw [← he, ← hty.1]
        | enable s' reg row =>
          simp only [ropOf, Floor.place, Option.bind_eq_bind, Option.bind_eq_some_iff,
            Option.some.injEq] at hl
          obtain ⟨_, -, rfl⟩ := hl
          rw [List.mem_singleton] at hpl
          rw [hpl]
          exact hs s'
        | equal a b =>
          simp only [ropOf, Floor.place, Option.bind_eq_bind, Option.bind_eq_some_iff,
            Option.some.injEq] at hl
          obtain ⟨_, -, _, -, rfl⟩ := hl
          rw [List.mem_singleton] at hpl
          rw [hpl]
          exact ⟨_, _, rfl, rfl, hcol _, hcol _⟩
        | const c v =>
          simp only [ropOf, Floor.place, Option.some.injEq] at hl
          subst hl
          simp at hpl
      · rw [List.mem_singleton] at ho
        subst ho
        simp only [Floor.place, Option.bind_eq_bind, Option.bind_eq_some_iff,
          Option.some.injEq] at hl
        obtain ⟨_, -, rfl⟩ := hl
        rw [List.mem_singleton] at hpl
        rw [hpl]
        exact ⟨_, ⟨.inst, x.2.1⟩, rfl, rfl, hcol _, hin x hx⟩
    · simp only [List.head?_cons, Option.some.injEq] at h1
      subst h1
      rcases h5 with rfl | rfl
      · exact hk
      · obtain ⟨rg, hrg, hc⟩ := List.mem_flatMap.1 (List.mem_of_getElem? h3)
        obtain ⟨i, hi'⟩ := List.getElem?_of_mem hrg
        obtain ⟨o, ho, he⟩ := List.mem_filterMap.1 hc
        rcases splitInst_getElem? hi' with hi' | ⟨x, -, -, rfl⟩
        swap
        · rw [List.mem_singleton] at ho
          subst ho
          simp at he
        obtain ⟨-, rfl⟩ := (split_getElem? _ _).1 hi'
        obtain ⟨op, -, rfl⟩ := List.mem_map.1 ho
        cases op with
        | const c v' =>
          simp only [ropOf, Option.some.injEq, Prod.mk.injEq] at he
          obtain ⟨-, rfl⟩ := he
          exact ⟨⟨.fixed, k₀⟩, _, rfl, rfl, hk₀, hcol _⟩
        | _ => simp [ropOf] at he
  exact ⟨fun w i r hp => key _ hp, fun w c r v hp => key _ hp, fun w a ra b rb hp => key _ hp⟩

/-- **C80, C81, there are such circuits.**  For any calls of gadgets in columns of the constraint
system, with a witness under which they are complete, and their layout by the single pass planner,
on enough rows the prover has an execution for every instance with the values of the cells
constrained to it. -/
theorem execution_of (hcol : ∀ c, HasCol na nf ni (ι c)) (hι : Function.Injective ι)
    (hσ : Function.Injective σ) (hs : ∀ s, σ s < ns) (ht : ∀ op ∈ ops, Typed ι op)
    (hm : ∀ op ∈ ops, home op < m) (hfix : ∀ c, ι c ≠ ⟨.fixed, tc⟩) (hk₀ : k₀ < nf) (hk : k₀ ≠ tc)
    {cs : Cs F} (hp : ∀ c, HasCol na nf ni c → c ∈ cs.permutation) {lookups : List (LookupArg C S F)}
    {tbl : List F} (hne : lookups ≠ [] → tbl ≠ []) (htbl : ∀ l ∈ lookups, l.table = tbl.map ([·]))
    (himpl : ∀ n usable (t : Cols F), usable ≤ n →
      (∀ l ∈ lookups, ∀ v, v ∈ l.table ↔
        ∃ j < usable, [cellVal t ⟨.fixed, tc⟩ (rotRow n j 0)] = v) →
      Implements ι σ gates lookups cs n usable t)
    (hguard : ∀ l ∈ lookups, ∃ sels main, Guarded l ops sels main)
    (insts : List (Region.Cell C × ℕ × ℕ))
    (hinst : ∀ x ∈ insts, x.1.reg < m ∧ 0 ≤ x.1.row ∧ x.2.1 < ni) (hG : ∃ G : Grid C F, Honest G ops)
    (hcomplete : ∀ G, Honest G ops → Region.Sat gates G ops ∧
      ∀ l ∈ lookups, ∀ reg, SatLookup l G ops reg)
    {s : Floor.Single} {calls : List (Owner × COp F)}
    (hpl : Floor.single [k₀] (splitInst ι σ m ops insts) = .ok (s, calls)) {B : ℕ}
    (hB' : ∀ w p, (w, p) ∈ calls → ∀ x ∈ rowsOf p, x < B) :
    (∀ u, SelectorsOk u ns (backends simple tc tbl calls)) ∧
    ∀ n inst, B + tbl.length + (cs.blindingFactors + 1) ≤ n →
      (∀ G, Honest G ops → ∀ x ∈ insts, G.at x.1 = (inst.getD x.2.1 []).getD x.2.2 0) →
      Execution ι σ gates lookups (· = tc) [k₀] cs n inst (backends simple tc tbl calls) ops
        (splitInst ι σ m ops insts) s.regions calls := by
  obtain ⟨c1, c2, c3⟩ := split_calls (fun x hx => (hinst x hx).2.2) hcol ht hfix hk₀ hk hs hpl
  have hd := splitInst_describes (σ := σ) (insts := insts) ht hm
  obtain ⟨G, hG⟩ := hG
  refine ⟨?_, fun n inst hn hval => ?_⟩
  · rintro u o ho i r rfl -
    rcases List.mem_append.1 ho with ho | ho
    · obtain ⟨⟨w, p⟩, hp, he⟩ := List.mem_map.1 ho
      cases p <;> simp only [backend, reduceCtorEq, Op.selector.injEq] at he
      obtain ⟨rfl, -⟩ := he
      exact c1 _ _ _ hp
    · simp [loadTable] at ho
  · have hu : B + tbl.length ≤ n - (cs.blindingFactors + 1) := by omega
    refine .of_values hι (.inr ⟨s, hpl, rfl⟩) (fun t htf => ⟨hσ, hd, oneValue_of hι hd hG, ?_, ?_, ?_,
      ?_, htf⟩) ?_ ⟨G, hG⟩ ?_ ?_
    · constructor
      · intro w i r h
        exact ⟨simple i, List.mem_append_left _ (List.mem_map.2 ⟨_, h, rfl⟩)⟩
      · intro i r h
        rcases List.mem_append.1 h with h | h
        · obtain ⟨⟨w, p⟩, hp, he⟩ := List.mem_map.1 h
          cases p <;> simp only [backend, reduceCtorEq, Op.selector.injEq] at he
          obtain ⟨rfl, rfl⟩ := he
          exact ⟨w, hp⟩
        · simp [loadTable] at h
      · intro w c r v h
        exact ⟨.trivial v, rfl, List.mem_append_left _ (List.mem_map.2 ⟨_, h, rfl⟩)⟩
      · intro c r x h
        rcases List.mem_append.1 h with h | h
        · obtain ⟨⟨w, p⟩, hp, he⟩ := List.mem_map.1 h
          cases p <;> simp only [backend, reduceCtorEq, Op.fixed.injEq] at he
          obtain ⟨rfl, rfl, rfl⟩ := he
          exact .inr ⟨w, _, rfl, hp⟩
        · rcases List.mem_append.1 h with h | h
          · obtain ⟨p, hp, he⟩ := List.mem_map.1 h
            cases he
            exact .inl rfl
          · simp at h
      · intro w a ra b rb h
        refine List.mem_append_left _ (List.mem_map.2 ⟨_, h, ?_⟩)
        simp only [backend, toColumn_ofColumn]
      · intro a ra b rb h
        rcases List.mem_append.1 h with h | h
        · obtain ⟨⟨w, p⟩, hp, he⟩ := List.mem_map.1 h
          cases p <;> simp only [backend, reduceCtorEq, Op.copy.injEq] at he
          obtain ⟨rfl, rfl, rfl, rfl⟩ := he
          obtain ⟨a', b', rfl, rfl, -⟩ := c3 _ _ _ _ _ hp
          rw [toColumn_ofColumn, toColumn_ofColumn]
          exact ⟨w, hp⟩
        · simp [loadTable] at h
      · intro c r x h
        rcases List.mem_append.1 h with h | h
        · obtain ⟨⟨w, p⟩, hp, he⟩ := List.mem_map.1 h
          cases p <;> simp [backend] at he
        · rcases List.mem_append.1 h with h | h
          · simp at h
          · obtain ⟨_, -, h⟩ := List.mem_map.1 h
            cases h
            rfl
      · exact c2
    · constructor
      · intro w i r h
        exact (hB' _ _ h r (by simp [rowsOf])).trans_le (by omega)
      · intro w c r v h
        exact (hB' _ _ h r (by simp [rowsOf])).trans_le (by omega)
      · intro w c r v h
        exact (hB' _ _ h r (by simp [rowsOf])).trans_le (by omega)
      · intro w a ra b rb h
        exact ⟨(hB' _ _ h ra (by simp [rowsOf])).trans_le (by omega),
          (hB' _ _ h rb (by simp [rowsOf])).trans_le (by omega)⟩
      · intro w a ra b rb h
        obtain ⟨a', b', ha, hb, h1, h2⟩ := c3 _ _ _ _ _ h
        rw [ofColumn_inj ha, ofColumn_inj hb]
        exact ⟨hp _ h1, hp _ h2⟩
    · refine himpl _ _ _ (by omega) fun l hlm v => ?_
      have hcell : ∀ j < n - (cs.blindingFactors + 1), ∀ x,
          (if j < tbl.length then tbl[j]? = some x else tbl.head? = some x) →
          cellVal t ⟨.fixed, tc⟩ (rotRow n j 0) = x := by
        intro j hj x hx
        rw [ExprEval.rotRow_zero (by omega : j < n)]
        show t.fixed tc j = x
        rw [htf]
        exact table_cells c2 hj x hx
      rw [htbl l hlm, List.mem_map]
      constructor
      · rintro ⟨x, hx, rfl⟩
        obtain ⟨j, hj⟩ := List.getElem?_of_mem hx
        have hl := (List.getElem?_eq_some_iff.1 hj).1
        refine ⟨j, by omega, ?_⟩
        rw [hcell j (by omega) x (by rw [if_pos hl]; exact hj)]
      · rintro ⟨j, hj, rfl⟩
        by_cases hl : j < tbl.length
        · exact ⟨tbl[j], List.getElem_mem hl, by
            rw [hcell j hj tbl[j] (by rw [if_pos hl]; exact List.getElem?_eq_getElem hl)]⟩
        · obtain ⟨x, xs, rfl⟩ := List.exists_cons_of_ne_nil (hne (List.ne_nil_of_mem hlm))
          exact ⟨x, by simp, by rw [hcell j hj x (by rw [if_neg hl]; rfl)]⟩
    · exact hguard
    · constructor
      · intro w c r v h
        exact ⟨.trivial v, rfl, List.mem_append_left _ (List.mem_map.2 ⟨_, h, rfl⟩)⟩
      · intro c r x h
        rcases List.mem_append.1 h with h | h
        · obtain ⟨⟨w, p⟩, hp, he⟩ := List.mem_map.1 h
          cases p <;> simp only [backend, reduceCtorEq, Op.advice.injEq] at he
          obtain ⟨rfl, rfl, rfl⟩ := he
          exact ⟨w, _, rfl, hp⟩
        · simp [loadTable] at h
    · exact hcomplete
    · intro G hG i r hr cell column row hmem
      rcases splitInst_getElem? hr with hr | ⟨x, hx, -, rfl⟩
      · obtain ⟨-, rfl⟩ := (split_getElem? _ _).1 hr
        obtain ⟨op, -, ho⟩ := List.mem_map.1 hmem
        cases op <;> simp [ropOf] at ho
      · rw [List.mem_singleton] at hmem
        cases hmem
        exact ⟨x.1, isCell_cellOf (hinst x hx).2.1, hval G hG x hx⟩

/-- The single pass planner lays the regions out. -/
theorem exists_plan {insts : List (Region.Cell C × ℕ × ℕ)} (h : ∀ x ∈ insts, x.1.reg < m) :
    ∃ s calls, Floor.single [k₀] (splitInst ι σ m ops insts) = .ok (s, calls) := by
  have := Floor.single_result (constants := [k₀]) (splitInst_causal (ι := ι) (σ := σ) (m := m)
    (ops := ops) h)
  rw [if_neg (by simp)] at this
  obtain ⟨⟨s, calls⟩, h⟩ := this
  exact ⟨s, calls, h⟩

/-- **C80, C81, there are such circuits.**  For any calls of gadgets in columns of the constraint
system, with a witness under which they are complete, the single pass planner lays the regions out,
and on enough rows the prover has an execution for every instance with the values of the cells
constrained to it. -/
theorem exists_execution (hcol : ∀ c, HasCol na nf ni (ι c)) (hι : Function.Injective ι)
    (hσ : Function.Injective σ) (hs : ∀ s, σ s < ns) (ht : ∀ op ∈ ops, Typed ι op)
    (hm : ∀ op ∈ ops, home op < m) (hfix : ∀ c, ι c ≠ ⟨.fixed, tc⟩) (hk₀ : k₀ < nf) (hk : k₀ ≠ tc)
    {cs : Cs F} (hp : ∀ c, HasCol na nf ni c → c ∈ cs.permutation) {lookups : List (LookupArg C S F)}
    {tbl : List F} (hne : lookups ≠ [] → tbl ≠ []) (htbl : ∀ l ∈ lookups, l.table = tbl.map ([·]))
    (himpl : ∀ n usable (t : Cols F), usable ≤ n →
      (∀ l ∈ lookups, ∀ v, v ∈ l.table ↔
        ∃ j < usable, [cellVal t ⟨.fixed, tc⟩ (rotRow n j 0)] = v) →
      Implements ι σ gates lookups cs n usable t)
    (hguard : ∀ l ∈ lookups, ∃ sels main, Guarded l ops sels main)
    (insts : List (Region.Cell C × ℕ × ℕ))
    (hinst : ∀ x ∈ insts, x.1.reg < m ∧ 0 ≤ x.1.row ∧ x.2.1 < ni) (hG : ∃ G : Grid C F, Honest G ops)
    (hcomplete : ∀ G, Honest G ops → Region.Sat gates G ops ∧
      ∀ l ∈ lookups, ∀ reg, SatLookup l G ops reg) :
    ∃ starts calls N, (∀ u, SelectorsOk u ns (backends simple tc tbl calls)) ∧ ∀ n inst, N ≤ n →
      (∀ G, Honest G ops → ∀ x ∈ insts, G.at x.1 = (inst.getD x.2.1 []).getD x.2.2 0) →
      Execution ι σ gates lookups (· = tc) [k₀] cs n inst (backends simple tc tbl calls) ops
        (splitInst ι σ m ops insts) starts calls := by
  obtain ⟨s, calls, hpl⟩ := exists_plan (ι := ι) (σ := σ) (m := m) (ops := ops) (k₀ := k₀)
    fun x hx => (hinst x hx).1
  obtain ⟨B, hB⟩ := exists_bound (calls.flatMap fun p => rowsOf p.2)
  obtain ⟨h1, h2⟩ := execution_of (simple := simple) hcol hι hσ hs ht hm hfix hk₀ hk hp hne htbl himpl
    hguard insts hinst hG hcomplete hpl (B := B)
    fun w p hp x hx => hB x (List.mem_flatMap.2 ⟨(w, p), hp, hx⟩)
  exact ⟨s.regions, calls, _, h1, h2⟩

end Verif.EndToEnd
