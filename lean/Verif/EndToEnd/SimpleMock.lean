import Verif.EndToEnd.Simple
import Verif.Mock.Runs

/-!
# The mock prover on the tutorial circuit (C90)

What `main` of halo2_proofs/examples/simple-example.rs 309-337 checks with the numbers 7, 2 and 3, for
all numbers: `MockProver::run(k, &circuit, vec![public_inputs])` and `verify()` succeed exactly when the
public input is `constant * a² * b²`.
-/

namespace Verif.EndToEnd.Simple

open Verif.Cs (Cs Column Kind)
open Verif.Expr (Expr)
open Verif.ExprEval (Cols rotRow)
open Verif.Link
open Verif.Mock
open Verif.Rows

variable {F : Type} [Field F] [LinearOrder F]

/-- The calls of the circuit, with the regions: each is opened and closed around its calls; the
constant (single_pass.rs 109-140) and the public input are constrained outside of any. -/
def wholeCalls (k a b : F) : List (Op F) :=
  [.enter, .advice 0 0 (some (.trivial a)), .exit,
    .enter, .advice 0 1 (some (.trivial b)), .exit,
    .enter, .advice 0 2 (some (.trivial k)), .exit,
    .fixed 0 0 (some (.trivial k)), .copy ⟨.fixed, 0⟩ 0 ⟨.advice, 0⟩ 2,
    .enter, .selector ⟨0, true⟩ 3, .advice 0 3 (some (.trivial a)),
    .copy ⟨.advice, 0⟩ 3 ⟨.advice, 0⟩ 0, .advice 1 3 (some (.trivial b)),
    .copy ⟨.advice, 1⟩ 3 ⟨.advice, 0⟩ 1, .advice 0 4 (some (.trivial (a * b))), .exit,
    .enter, .selector ⟨0, true⟩ 5, .advice 0 5 (some (.trivial (a * b))),
    .copy ⟨.advice, 0⟩ 5 ⟨.advice, 0⟩ 4, .advice 1 5 (some (.trivial (a * b))),
    .copy ⟨.advice, 1⟩ 5 ⟨.advice, 0⟩ 4, .advice 0 6 (some (.trivial (a * b * (a * b)))), .exit,
    .enter, .selector ⟨0, true⟩ 7, .advice 0 7 (some (.trivial k)),
    .copy ⟨.advice, 0⟩ 7 ⟨.advice, 0⟩ 2, .advice 1 7 (some (.trivial (a * b * (a * b)))),
    .copy ⟨.advice, 1⟩ 7 ⟨.advice, 0⟩ 6, .advice 0 8 (some (.trivial (k * (a * b * (a * b))))), .exit,
    .copy ⟨.advice, 0⟩ 8 ⟨.inst, 0⟩ 0]

theorem wholeCalls_body (k a b : F) :
    (wholeCalls k a b).filter body = backends (fun _ => true) 1 [] (calls k a b) := rfl

theorem wholeCalls_regions (k a b : F) : Mock.regionCalls (wholeCalls k a b) =
    [[.advice 0 0 (some (.trivial a))], [.advice 0 1 (some (.trivial b))],
      [.advice 0 2 (some (.trivial k))],
      [.selector ⟨0, true⟩ 3, .advice 0 3 (some (.trivial a)), .copy ⟨.advice, 0⟩ 3 ⟨.advice, 0⟩ 0,
        .advice 1 3 (some (.trivial b)), .copy ⟨.advice, 1⟩ 3 ⟨.advice, 0⟩ 1,
        .advice 0 4 (some (.trivial (a * b)))],
      [.selector ⟨0, true⟩ 5, .advice 0 5 (some (.trivial (a * b))),
        .copy ⟨.advice, 0⟩ 5 ⟨.advice, 0⟩ 4, .advice 1 5 (some (.trivial (a * b))),
        .copy ⟨.advice, 1⟩ 5 ⟨.advice, 0⟩ 4, .advice 0 6 (some (.trivial (a * b * (a * b))))],
      [.selector ⟨0, true⟩ 7, .advice 0 7 (some (.trivial k)),
        .copy ⟨.advice, 0⟩ 7 ⟨.advice, 0⟩ 2, .advice 1 7 (some (.trivial (a * b * (a * b)))),
        .copy ⟨.advice, 1⟩ 7 ⟨.advice, 0⟩ 6,
        .advice 0 8 (some (.trivial (k * (a * b * (a * b)))))]] := rfl

theorem isAssigned_of {usable : ℕ} {ops : List (Op F)} {c : Column} {r : ℕ} (hr : r < usable)
    (h : (c.kind = .advice ∧ ∃ v, .advice c.index r (some v) ∈ ops) ∨
      (c.kind = .fixed ∧ ∃ v, .fixed c.index r (some v) ∈ ops) ∨ c.kind = .inst) :
    IsAssigned usable ops c r := by
  have key : ∀ (w : Op F → Option (Assigned.Assigned F)) (o : Op F), o ∈ ops → w o ≠ none →
      ∃ v, lastWrite w ops = some v := by
    intro w o ho hw
    unfold lastWrite
    rw [← Option.isSome_iff_exists, List.findSome?_isSome_iff]
    exact ⟨o, by simpa using ho, Option.isSome_iff_ne_none.2 hw⟩
  unfold IsAssigned
  rcases h with ⟨hk, v, hv⟩ | ⟨hk, v, hv⟩ | hk <;> rw [hk] <;> dsimp only
  · exact key _ _ hv (by simp [adviceWrite, hr])
  · exact key _ _ hv (by simp [fixedWrite, hr])

theorem rotRow_of {n j : ℕ} {r : ℤ} {i : ℕ} (h : (j : ℤ) + r = i) (hi : i < n) : rotRow n j r = i := by
  unfold rotRow
  rw [h, Int.emod_eq_of_lt (by omega) (by omega)]
  rfl

/-- The columns of the circuit satisfy it, if the public input is the product. -/
theorem product_sat (constant a b : F) {k : ℕ} (hn : 16 ≤ 2 ^ k) :
    Satisfied theCs (2 ^ k) [[constant * a ^ 2 * b ^ 2]] (wholeCalls constant a b) (fun _ _ => 0) := by
  have hm := ((exec_of constant a b).2 (2 ^ k) (by omega)).meets Subtype.val_injective fun _ _ => 0
  have hsame : SameCircuit (backends (fun _ => true) 1 [] (calls constant a b))
      (wholeCalls constant a b) := rfl
  have hassign : assignment (2 ^ k - ((theCs : Cs F).blindingFactors + 1))
      [[constant * a ^ 2 * b ^ 2]] (backends (fun _ => true) 1 [] (calls constant a b)) (fun _ _ => 0) =
      assignment (2 ^ k - ((theCs : Cs F).blindingFactors + 1)) [[constant * a ^ 2 * b ^ 2]]
        (wholeCalls constant a b) (fun _ _ => 0) := by
    rw [← wholeCalls_body]
    simp only [assignment, lastWrite, ← List.filter_reverse]
    congr 1
  rw [hassign] at hm
  have hm := meets_same hsame hm
  exact ⟨hm.gates, hm.lookups, hm.copies⟩

theorem infos_fit {k : ℕ} (hn : 16 ≤ 2 ^ k) : ∀ g ∈ mainInfos, ∀ cell ∈ g.cells,
    cell.2.natAbs ≤ 2 ^ k ∧ (cell.1.kind = .inst → cell.1.index < (theCs : Cs F).numInstance) := by
  intro g hg cell hc
  rw [mainInfos, List.mem_singleton] at hg
  subst hg
  simp only [List.mem_cons, List.not_mem_nil, or_false] at hc
  rcases hc with rfl | rfl | rfl <;> refine ⟨?_, by simp⟩ <;> simp <;> omega

theorem all_supplied (constant a b : F) {k u : ℕ} (hn : 16 ≤ 2 ^ k) (hu : 10 ≤ u) (inst : List (List F)) :
    ∀ body ∈ Mock.regionCalls (wholeCalls constant a b), ∀ info ∈ mainInfos, ∀ row column rot,
      Queries info u body row column rot →
      Supplied (2 ^ k) u inst body row column rot := by
  intro bd hb info hi row column rot hq
  rw [mainInfos, List.mem_singleton] at hi
  subst hi
  rw [wholeCalls_regions] at hb
  obtain ⟨hcell, sel, hsel, hmem, hrow⟩ := hq
  have hr : (row = 3 ∨ row = 5 ∨ row = 7) := by
    simp only [List.mem_cons, List.not_mem_nil, or_false] at hb
    rcases hb with rfl | rfl | rfl | rfl | rfl | rfl <;> simp at hmem <;> simp [hmem]
  have e0 : rotRow (2 ^ k) row 0 = row := rotRow_of (by omega) (by omega)
  have e1 : rotRow (2 ^ k) row 1 = row + 1 := rotRow_of (by omega) (by omega)
  have hl : row + 1 < u := by omega
  simp only [List.mem_cons, List.not_mem_nil, or_false] at hb hcell
  rcases hcell with hcell | hcell | hcell <;> obtain ⟨rfl, rfl⟩ := Prod.mk.inj hcell <;>
    simp only [Supplied, e0, e1, hrow, hl, true_and] <;>
    rcases hb with rfl | rfl | rfl | rfl | rfl | rfl <;> simp at hmem <;> simp [hmem]

/-- **C90**, the circuit of the tutorial: for all numbers, the mock prover accepts it with the public
input `c` exactly when `c` is `constant * a² * b²`. -/
theorem mock_product (hchar : ∀ i : ℕ, 0 < i → i ≤ 3 → (i : F) ≠ 0) (constant a b c : F) {k : ℕ}
    (hk : 4 ≤ k) (hk' : k ≤ 64) :
    mock theCs (2 ^ k) mainInfos [[c]] (wholeCalls constant a b) = some (.ok ()) ↔
      c = constant * a ^ 2 * b ^ 2 := by
  have hexec : execute constant a b = some ((wholeCalls constant a b).filter body) :=
    execute_eq constant a b
  refine ⟨fun h => mock_means hchar hk hk' hexec h, ?_⟩
  rintro rfl
  have hn : 16 ≤ 2 ^ k := le_trans (by decide) (Nat.pow_le_pow_right (by decide) hk : 2 ^ 4 ≤ 2 ^ k)
  have hu : 10 ≤ 2 ^ k - ((theCs : Cs F).blindingFactors + 1) := by rw [blinding_eq]; omega
  have hsat := product_sat constant a b hn
  generalize hU : 2 ^ k - ((theCs : Cs F).blindingFactors + 1) = u at hu
  refine mock_ok theCs k hk' (fun _ => true) (configured (by omega) hchar) _ _ mainInfos ?_ rfl ?_ ?_ ?_
    ?_ ?_ ?_ ?_ (fun _ _ => 0) hsat
  · exact le_trans (show 8 ≤ 16 by decide) hn
  · intro c hc
    rw [List.mem_singleton.1 hc, hU]
    simp; omega
  · rw [hU]
    simp [wholeCalls, InTurn, theCs]
  · exact infos_fit hn
  · rw [hU]
    exact all_supplied constant a b hn hu _
  · rw [hU]
    intro lc lr rc rr hmem _ _ hlr hrr
    have h : ∀ c r, r < u → (c, r) ∈ [((⟨.advice, 0⟩ : Column), 0), (⟨.advice, 0⟩, 1), (⟨.advice, 0⟩, 2),
        (⟨.advice, 0⟩, 3), (⟨.advice, 1⟩, 3), (⟨.advice, 0⟩, 4), (⟨.advice, 0⟩, 5), (⟨.advice, 1⟩, 5),
        (⟨.advice, 0⟩, 6), (⟨.advice, 0⟩, 7), (⟨.advice, 1⟩, 7), (⟨.advice, 0⟩, 8), (⟨.fixed, 0⟩, 0),
        (⟨.inst, 0⟩, 0)] → IsAssigned u (wholeCalls constant a b) c r := by
      intro c r hr hc
      refine isAssigned_of hr ?_
      simp only [List.mem_cons, List.not_mem_nil, or_false, Prod.mk.injEq] at hc
      rcases hc with ⟨rfl, rfl⟩ | ⟨rfl, rfl⟩ | ⟨rfl, rfl⟩ | ⟨rfl, rfl⟩ | ⟨rfl, rfl⟩ | ⟨rfl, rfl⟩ |
        ⟨rfl, rfl⟩ | ⟨rfl, rfl⟩ | ⟨rfl, rfl⟩ | ⟨rfl, rfl⟩ | ⟨rfl, rfl⟩ | ⟨rfl, rfl⟩ | ⟨rfl, rfl⟩ |
        ⟨rfl, rfl⟩ <;> simp [wholeCalls]
    refine iff_of_true (h _ _ hlr ?_) (h _ _ hrr ?_) <;>
    · simp only [wholeCalls, List.mem_cons, List.not_mem_nil, or_false, reduceCtorEq, false_or,
        Op.copy.injEq] at hmem
      rcases hmem with ⟨rfl, rfl, rfl, rfl⟩ | ⟨rfl, rfl, rfl, rfl⟩ | ⟨rfl, rfl, rfl, rfl⟩ |
        ⟨rfl, rfl, rfl, rfl⟩ | ⟨rfl, rfl, rfl, rfl⟩ | ⟨rfl, rfl, rfl, rfl⟩ | ⟨rfl, rfl, rfl, rfl⟩ |
        ⟨rfl, rfl, rfl, rfl⟩ <;> decide
  · rw [hU]
    intro g hg e he j hj
    rw [show g = _ from List.mem_singleton.1 hg, List.mem_singleton] at he
    subst he
    rintro ⟨hex, hon, -⟩
    have hj3 : j = 3 ∨ j = 5 ∨ j = 7 := by
      by_contra hne
      refine hon ?_
      show (wholeCalls constant a b).any (enables u 0 j) = false
      simp only [wholeCalls, List.any_cons, List.any_nil, enables]
      simp
      omega
    have hex : u ≤ rotRow (2 ^ k) j 0 ∨ u ≤ rotRow (2 ^ k) j 1 := by
      rcases hex with hex | (⟨hex | hex, -⟩ | hex)
      · exact hex.elim
      · exact .inl hex
      · exact .inl hex
      · exact .inr hex
    rw [rotRow_of (i := j) (by omega) (by omega), rotRow_of (i := j + 1) (by omega) (by omega)] at hex
    omega
  · intro l hl
    simp [theCs] at hl

/-- **C90**, the circuit of the tutorial: with any other public input the mock prover rejects it, with a
list of failures and not a panic. -/
theorem mock_other (hchar : ∀ i : ℕ, 0 < i → i ≤ 3 → (i : F) ≠ 0) (constant a b c : F) {k : ℕ}
    (hk : 4 ≤ k) (hk' : k ≤ 64) (hc : c ≠ constant * a ^ 2 * b ^ 2) :
    ∃ fs, fs ≠ [] ∧ mock theCs (2 ^ k) mainInfos [[c]] (wholeCalls constant a b) = some (.error fs) := by
  have hn : 16 ≤ 2 ^ k := le_trans (by decide) (Nat.pow_le_pow_right (by decide) hk : 2 ^ 4 ≤ 2 ^ k)
  have hu : 10 ≤ 2 ^ k - ((theCs : Cs F).blindingFactors + 1) := by rw [blinding_eq]; omega
  obtain ⟨res, h⟩ := mock_verdict theCs k (fun _ => true) (configured (by omega) hchar) [[c]]
    (wholeCalls constant a b) mainInfos (le_trans (show 8 ≤ 16 by decide) hn) rfl
    (fun c hc => by rw [List.mem_singleton.1 hc]; simp only [List.length_singleton]; omega)
    (by generalize 2 ^ k - ((theCs : Cs F).blindingFactors + 1) = u at hu
        simp [wholeCalls, InTurn, theCs])
    (infos_fit hn)
    (fun bd hb info hi row column rot hq hkd => by
      have h := all_supplied constant a b hn hu [[c]] bd hb info hi row column rot hq
      unfold Supplied at h
      rcases hc : column.kind with _ | _ | _ <;> rw [hc] at h <;> dsimp only at h
      · obtain ⟨h, v, hv⟩ := h; exact ⟨_, _, v, h, .inl hv⟩
      · obtain ⟨h, v, hv⟩ := h; exact ⟨_, _, v, h, .inr hv⟩
      · exact absurd hc hkd)
    (fun g hg e he j hj _ => ⟨fun _ _ => 0, by
      have h := (product_sat constant a b hn).gates g hg e he j hj
      rw [show g = _ from List.mem_singleton.1 hg, List.mem_singleton] at he
      subst he
      exact h⟩)
  rcases res with fs | _
  · refine ⟨fs, ?_, h⟩
    rintro rfl
    unfold mock at h
    obtain ⟨s₀, h0, h⟩ := Option.bind_eq_some_iff.1 h
    obtain ⟨s, h1, h⟩ := Option.bind_eq_some_iff.1 h
    obtain ⟨⟨cs₁, s'⟩, h2, h⟩ := Option.bind_eq_some_iff.1 h
    exact Mock.verify_nonempty h
  · exact absurd ((mock_product hchar constant a b c hk hk').1 h) hc

/-- The numbers of `main`: 252 is accepted, whatever the number of rows, and nothing else. -/
example {k : ℕ} (hk : 4 ≤ k) (hk' : k ≤ 64) [LinearOrder (ZMod Pasta.pallas)]
    (c : ZMod Pasta.pallas) :
    mock theCs (2 ^ k) mainInfos [[c]] (wholeCalls 7 2 3) = some (.ok ()) ↔ c = 252 := by
  have := mock_product (fun i hi h => Preimage.fp_char i hi (by omega)) (7 : ZMod Pasta.pallas) 2 3 c
    hk hk'
  rwa [show (7 : ZMod Pasta.pallas) * 2 ^ 2 * 3 ^ 2 = 252 by norm_num] at this

end Verif.EndToEnd.Simple
