import Verif.Merkle.Binding
import Verif.Pasta.Props

/-!
# The Merkle chip on Pallas

The theorems of this directory with all their hypotheses on the field and the curve discharged, and
the existence of a path that meets the remaining ones.
-/

namespace Verif.Merkle

open Verif.Region Verif.Ecc Verif.Utilities Verif.Sinsemilla

section

variable {C S : Type} {p : ℕ} [Fact p.Prime] {b : ZMod p}

/-- What holds in the regions of a program holds in all of them. -/
theorem Ok.chip {α : Type} {gen : ℕ → Pt b} {cfg : Config C S} {G : Grid C (ZMod p)}
    {f : M C S (ZMod p) α} {n n' : ℕ} {a : α} {ops : List (Op C S (ZMod p))} (hl : Local f)
    (h : f n = some (a, n', ops)) (ok : Ok gen cfg G ops n n') : SatChip gen cfg G ops := by
  have hoff : ∀ s reg row, ¬ (n ≤ reg ∧ reg < n') → .enable s reg row ∉ ops :=
    fun s reg row hr hm => hr ((hl _ _ _ _ h).2 _ hm _ rfl)
  refine ⟨ok.sat, fun reg => ?_, fun reg => ?_⟩
  · by_cases hr : n ≤ reg ∧ reg < n'
    · exact ok.hash reg hr.1 hr.2
    · exact fun row => Sinsemilla.lookup_off _ _ _ (by norm_num)
        (LookupRange.selectors_off (hoff _ reg row hr))
  · by_cases hr : n ≤ reg ∧ reg < n'
    · exact ok.range reg hr.1 hr.2
    · exact fun row => LookupRange.lookup_off _ _ (LookupRange.selectors_off (hoff _ reg row hr))

theorem calculateRoot_local (gens : ℕ → ZMod p × ZMod p) (chips : List (Config C S)) (Q : Pt b)
    (leafPos : ℕ) (path : List (ZMod p)) (leaf : ACell C (ZMod p)) :
    Local (calculateRoot gens chips Q leafPos path leaf) :=
  Local.assert.bind fun _ => Local.unwrap.bind fun _ => layers_local _ _ _ _ _ _

/-- If the hashes along a path are defined, there is an assignment that meets all constraints and
lookups, whatever the contents of the regions before, and the output cell holds the root. -/
theorem calculateRoot_satisfiable (hg : Good b) (hp : 2 ^ 250 ≤ p) (hp' : p < 2 ^ 255) {gen : ℕ → Pt b}
    {chips : List (Config C S)} (hne : chips ≠ []) (hcs : Chips (· ∈ chips)) {Q : Pt b} (hQ : Q ≠ 0)
    {leafPos : ℕ} {path : List (ZMod p)} (hlen : path.length ≤ 64) {leaf : ACell C (ZMod p)}
    {root : ZMod p}
    (hspec : specRoot gen Q 0 leaf.value (path.zip (lebs path.length leafPos)) = some root) {n : ℕ}
    (hleaf : leaf.cell.reg < n) (G₀ : Grid C (ZMod p)) (hG₀ : G₀.at leaf.cell = leaf.value) :
    ∃ out n' ops G, calculateRoot (fun w => enc (gen w)) chips Q leafPos path leaf n
        = some (out, n', ops) ∧ (∀ c : Cell C, c.reg < n → G.at c = G₀.at c) ∧
      (∀ cfg ∈ chips, SatChip gen cfg G ops) ∧ G.at out.cell = root := by
  obtain ⟨out, ops, hrun, hv, hcons, hcomp⟩ := calculateRoot_complete hg hp hp' hne hcs hQ hlen hspec n
  obtain ⟨G, hG, hkeep⟩ := hcons.exists_honest G₀
  have hloc := calculateRoot_local (fun w => enc (gen w)) chips Q leafPos path leaf
  have hk : ∀ c : Cell C, c.reg < n → G.at c = G₀.at c := by
    intro c hc
    refine hkeep c fun v hv => ?_
    rcases hv with hv | hv
    · have := ((hloc _ _ _ _ hrun).2 _ hv _ rfl).1
      omega
    · have := ((hloc _ _ _ _ hrun).2 _ hv _ rfl).1
      omega
  obtain ⟨k1, k2⟩ := hcomp G hG ((hk _ hleaf).trans hG₀)
  exact ⟨out, _, ops, G, hrun, hk, fun cfg hc => (k1 cfg hc).chip hloc hrun, k2.trans hv⟩

/-- With a single generator the hash of a short message is defined. -/
theorem specHash_const {g : Pt b} {N : ℕ} (hord : ∀ m, 0 < m → m < N → m • g ≠ 0) (ws : List ℕ) :
    ∀ c, 2 ≤ c → (c + 1) * 2 ^ ws.length < N →
      ∃ R, specHash (fun _ => g) (c • g) ws = some R := by
  induction ws with
  | nil => intro c _ _; exact ⟨_, rfl⟩
  | cons w ws ih =>
    intro c hc hN
    rw [List.length_cons, pow_succ] at hN
    have h1 : 1 ≤ 2 ^ ws.length := Nat.one_le_two_pow
    have hlt : 2 * (c + 1) < N := by nlinarith
    have e1 : addInc (c • g) g = some ((c + 1) • g) := by
      refine addInc_some.2 ⟨hord c (by omega) (by omega), ?_, ?_, ?_, by rw [succ_nsmul]⟩
      · simpa using hord 1 (by omega) (by omega)
      · intro e
        refine hord (c - 1) (by omega) (by omega) ?_
        have : (c - 1) • g + g = 0 + g := by
          rw [zero_add, ← succ_nsmul, Nat.sub_add_cancel (by omega), e]
        exact add_right_cancel this
      · intro e
        refine hord (c + 1) (by omega) (by omega) ?_
        rw [succ_nsmul, e, neg_add_cancel]
    have e2 : addInc ((c + 1) • g) (c • g) = some ((2 * c + 1) • g) := by
      refine addInc_some.2 ⟨hord _ (by omega) (by omega), hord _ (by omega) (by omega), ?_, ?_, ?_⟩
      · intro e
        rw [succ_nsmul] at e
        have := hord 1 (by omega) (by omega)
        rw [one_nsmul] at this
        exact this (by simpa using e)
      · intro e
        refine hord (2 * c + 1) (by omega) (by omega) ?_
        rw [show 2 * c + 1 = (c + 1) + c by ring, add_nsmul, e, neg_add_cancel]
      · rw [show 2 * c + 1 = (c + 1) + c by ring, add_nsmul]
    obtain ⟨R, hR⟩ := ih (2 * c + 1) (by omega) (by
      rw [show 2 * c + 1 + 1 = (c + 1) * 2 by ring, mul_assoc, mul_comm 2]
      exact hN)
    refine ⟨R, ?_⟩
    simp only [specHash, e1, e2, Option.bind_some, hR]

theorem specRoot_const {g : Pt b} {N : ℕ} (hord : ∀ m, 0 < m → m < N → m • g ≠ 0)
    (hN : 3 * 2 ^ 52 < N) (path : List (ZMod p × Bool)) (l : ℕ) (node : ZMod p) :
    ∃ root, specRoot (fun _ => g) (2 • g) l node path = some root := by
  induction path generalizing l node with
  | nil => exact ⟨node, rfl⟩
  | cons s rest ih =>
    obtain ⟨R, hR⟩ := specHash_const hord (crhWords l (if s.2 then s.1 else node).val
      (if s.2 then node else s.1).val) 2 le_rfl (by rw [crhWords_length]; exact hN)
    obtain ⟨root, hroot⟩ := ih (l + 1) (enc R).1
    exact ⟨root, by rw [specRoot, hR, Option.bind_some, hroot]⟩

end

open Verif.Pasta

theorem pallas_big : 2 ^ 250 ≤ pallas ∧ pallas < 2 ^ 255 := by decide +kernel

/-- **C60** on Pallas, soundness of `calculate_root`. -/
theorem pallas_root_sound {C S : Type} {gen : ℕ → Pt (5 : ZMod pallas)}
    (hgen0 : ∀ w < 2 ^ 10, gen w ≠ 0) {chips : List (Config C S)} {Q : Pt (5 : ZMod pallas)}
    {leafPos : ℕ} {path : List (ZMod pallas)} {leaf out : ACell C (ZMod pallas)} {n n' : ℕ}
    {ops tot : List (Op C S (ZMod pallas))}
    (h : calculateRoot (fun w => enc (gen w)) chips Q leafPos path leaf n = some (out, n', ops))
    (hpart : PartOf ops tot n n') {G : Grid C (ZMod pallas)}
    (hd : ∀ cfg ∈ chips, cfg.sins.range.Distinct) (hs : ∀ cfg ∈ chips, SatChip gen cfg G tot) :
    ∃ path' : List (ZMod pallas × Bool), path'.length = path.length ∧
      Root gen Q 0 (G.at leaf.cell) path' (G.at out.cell) :=
  calculateRoot_sound pallas_good pallas_big.1 hgen0 h hpart hd hs

theorem pallasGen_order (m : ℕ) (h0 : 0 < m) (h : m < vesta) : m • pallasGen ≠ 0 := by
  intro e
  have hne : pallasGen ≠ 0 := gen_ne pallas_good _
  have ho : addOrderOf pallasGen = vesta :=
    addOrderOf_eq_prime (hp := ⟨vesta_prime⟩) (pallas_order _) hne
  have := addOrderOf_dvd_of_nsmul_eq_zero e
  rw [ho] at this
  exact absurd (Nat.le_of_dvd h0 this) (by omega)

/-- Two chips that share a range check. -/
def exampleChip (i : ℕ) : Config (Fin 8 × ℕ) ℕ where
  sins := { qS1 := 10 * i + 10, qS2 := (5, i), qS4 := 10 * i + 11, fixedYQ := (6, i),
            da := ⟨(0, i), (1, i), (3, i), (4, i)⟩, bits := (2, i), witnessPieces := (7, i),
            range := ⟨0, 1, 2, (7, 0), .base⟩, allowPrivate := false }
  qDecompose := 10 * i + 12
  qSwap := 10 * i + 13

theorem exampleChips : Chips (· ∈ [exampleChip 0, exampleChip 1]) := by
  have hd : ∀ i, (exampleChip i).Distinct := by
    intro i
    refine ⟨?_, ⟨by simp [exampleChip], by simp [exampleChip], by simp [exampleChip],
      by simp [exampleChip]⟩, ?_, ?_⟩
    · simp [exampleChip, Sinsemilla.Config.columns]
    · simp [exampleChip, Config.own]
    · simp only [exampleChip, Config.own, rangeSels]
      intro s hs hs'
      simp at hs hs'
      omega
  refine ⟨?_, ?_, ?_⟩
  · intro cfg hc
    simp only [List.mem_cons, List.not_mem_nil, or_false] at hc
    rcases hc with rfl | rfl <;> exact hd _
  · intro cfg cfg' hc hc'
    simp only [List.mem_cons, List.not_mem_nil, or_false] at hc hc'
    rcases hc with rfl | rfl <;> rcases hc' with rfl | rfl <;> rfl
  · intro cfg cfg' hc hc'
    simp only [List.mem_cons, List.not_mem_nil, or_false] at hc hc'
    rcases hc with rfl | rfl <;> rcases hc' with rfl | rfl
    · exact .inl rfl
    · right; decide
    · right; decide
    · exact .inl rfl

/-- The hypotheses of the theorems are met: for every path of at most 64 nodes there is an assignment
on Pallas with two chips that meets all constraints and lookups. -/
theorem pallas_path_exists (leafPos : ℕ) (path : List (ZMod pallas)) (hlen : path.length ≤ 64)
    (leaf : ZMod pallas) :
    ∃ out n' ops G root, calculateRoot (fun _ => enc pallasGen) [exampleChip 0, exampleChip 1]
        (2 • pallasGen) leafPos path ⟨⟨0, (7, 0), 0⟩, leaf⟩ 1 = some (out, n', ops) ∧
      (∀ cfg ∈ [exampleChip 0, exampleChip 1], SatChip (fun _ => pallasGen) cfg G ops) ∧
      G.at ⟨0, (7, 0), 0⟩ = leaf ∧ G.at out.cell = root ∧
      specRoot (fun _ => pallasGen) (2 • pallasGen) 0 leaf (path.zip (lebs path.length leafPos))
        = some root := by
  obtain ⟨root, hroot⟩ := specRoot_const pallasGen_order (by decide +kernel)
    (path.zip (lebs path.length leafPos)) 0 leaf
  obtain ⟨out, n', ops, G, h1, h2, h3, h4⟩ := calculateRoot_satisfiable pallas_good pallas_big.1 pallas_big.2
    (chips := [exampleChip 0, exampleChip 1]) (by simp) exampleChips
    (pallasGen_order 2 (by omega) (by decide +kernel)) hlen (leaf := ⟨⟨0, (7, 0), 0⟩, leaf⟩) hroot (n := 1)
    (by simp) (fun _ _ _ => leaf) rfl
  exact ⟨out, n', ops, G, root, h1, h3, h2 ⟨0, (7, 0), 0⟩ (by simp), h4, hroot⟩

end Verif.Merkle
