import Verif.Sha256.Props
import Verif.Sha256.Pasta

/-!
# Concrete cases of the theorems on SHA-256

The specification is run on the message "abc" (the example of FIPS 180-4), which shows that it is
SHA-256.  The hypotheses of the theorems on the chip are met over the base field of Pallas by this
message, and those of the theorems on the single functions by the rows that the chip assigns.
-/

namespace Verif.Sha256.Example

open Verif.Region Col Spec Verif.Pasta

attribute [local irreducible] table

/-- The base field of Pallas. -/
abbrev Fp := ZMod pallas

/-- The padded message "abc". -/
def abc (j : ℕ) : Word := if j = 0 then 0x61626380 else if j = 15 then 0x18 else 0

/-- Its schedule. -/
def abcW : List Word :=
  [0x61626380, 0x00000000, 0x00000000, 0x00000000, 0x00000000, 0x00000000, 0x00000000, 0x00000000,
    0x00000000, 0x00000000, 0x00000000, 0x00000000, 0x00000000, 0x00000000, 0x00000000, 0x00000018,
    0x61626380, 0x000f0000, 0x7da86405, 0x600003c6, 0x3e9d7b78, 0x0183fc00, 0x12dcbfdb, 0xe2e2c38e,
    0xc8215c1a, 0xb73679a2, 0xe5bc3909, 0x32663c5b, 0x9d209d67, 0xec8726cb, 0x702138a4, 0xd3b7973b,
    0x93f5997f, 0x3b68ba73, 0xaff4ffc1, 0xf10a5c62, 0x0a8b3996, 0x72af830a, 0x9409e33e, 0x24641522,
    0x9f47bf94, 0xf0a64f5a, 0x3e246a79, 0x27333ba3, 0x0c4763f2, 0x840abf27, 0x7a290d5d, 0x065c43da,
    0xfb3e89cb, 0xcc7617db, 0xb9e66c34, 0xa9993667, 0x84badedd, 0xc21462bc, 0x1487472c, 0xb20f7a99,
    0xef57b9cd, 0xebe6b238, 0x9fe3095e, 0x78bc8d4b, 0xa43fcf15, 0x668b2ff8, 0xeeaba2cc, 0x12b1edeb]

theorem abc_schedule : ∀ t < 64, schedule abc t = abcW.getD t 0 := by
  have h0 : ∀ t < 16, abc t = abcW.getD t 0 := by decide +kernel
  have h1 : ∀ t < 64, 16 ≤ t → abcW.getD t 0 = ssig1 (abcW.getD (t - 2) 0) + abcW.getD (t - 7) 0 +
      ssig0 (abcW.getD (t - 15) 0) + abcW.getD (t - 16) 0 := by decide +kernel
  intro t
  induction t using Nat.strong_induction_on with
  | _ t ih =>
    intro ht
    rw [schedule]
    split_ifs with h
    · exact h0 t h
    · rw [ih _ (by omega) (by omega), ih _ (by omega) (by omega), ih _ (by omega) (by omega),
        ih _ (by omega) (by omega), h1 t ht (by omega)]

theorem rounds_congr {K w w' : ℕ → Word} {s : Vars} : ∀ {n : ℕ}, (∀ t < n, w t = w' t) →
    rounds K w s n = rounds K w' s n
  | 0, _ => rfl
  | n + 1, h => by rw [rounds, rounds, h n (by omega), rounds_congr fun t ht => h t (by omega)]

/-- The working variables after the rounds. -/
def abcR : Vars :=
  ⟨0x506e3058, 0xd39a2165, 0x04d24d6c, 0xb85e2ce9,
    0x5ef50f24, 0xfb121210, 0x948d25b6, 0x961f4894⟩

theorem abc_rounds : rounds chipK (schedule abc) chipIv 64 = abcR := by
  rw [rounds_congr abc_schedule]
  decide +kernel

/-- The specification gives the digest of "abc" in the example of FIPS 180-4. -/
theorem abc_compress : Spec.compress chipK abc chipIv =
    ⟨0xba7816bf, 0x8f01cfea, 0x414140de, 0x5dae2223,
      0xb00361a3, 0x96177a9c, 0xb410ff61, 0xf20015ad⟩ := by
  unfold Spec.compress
  rw [abc_rounds]
  decide +kernel

theorem abc_plain : plainRounds chipK abc chipIv 1 = abcR := by
  have hb : block abc 0 = abc := by funext j; simp [block]
  rw [plainRounds, hb]
  exact abc_rounds

/-- The run of the chip on "abc" (C73): the digest it returns is not that of "abc". -/
example : ∃ dig ops, (sha256 ((List.range 16).map fun j => some (abc j).toNat) : M Col Sel Fp _) 0 =
      some (dig, 4, ops) ∧
    dig.map ABits.bits = [0x506e3058, 0xd39a2165, 0x04d24d6c, 0xb85e2ce9,
      0x5ef50f24, 0xfb121210, 0x948d25b6, 0x961f4894] ∧
    ∃ G : Grid Col Fp, Honest G ops ∧ Sat gates G ops ∧ ∀ reg, SatLookup lookup G ops reg := by
  obtain ⟨dig, ops, h, hd, G, h1, h2, h3, -⟩ :=
    sha256_complete big_pallas chip_constants abc (k := 1) le_rfl 0
  refine ⟨dig, ops, h, ?_, G, h1, h2, h3⟩
  rw [hd, abc_plain]
  decide +kernel

/-- The hypotheses of `sha256_not_fips` are met (C73). -/
example : ∃ dig n' ops, (sha256 ((List.range 16).map fun j => some (abc j).toNat) : M Col Sel Fp _) 0 =
      some (dig, n', ops) ∧ (dig.map ABits.bits)[0]? ≠ some 0xba7816bf := by
  obtain ⟨dig, ops, h, -⟩ := sha256_complete (F := Fp) big_pallas chip_constants abc (k := 1) le_rfl 0
  have := sha256_not_fips big_pallas chip_constants abc 0 h 0 (by norm_num)
  rw [abc_compress] at this
  exact ⟨dig, _, ops, h, this⟩

/-- The constraints of the hash of "abc" accept the digest of eight zero words (C74). -/
example : ∃ dig ops, (sha256 ((List.range 16).map fun j => some (abc j).toNat) : M Col Sel Fp _) 0 =
      some (dig, 4, ops) ∧
    ∃ G : Grid Col Fp, Sat gates G ops ∧ (∀ reg, SatLookup lookup G ops reg) ∧
      dig.map (fun c => G.at c.cell) = [0, 0, 0, 0, 0, 0, 0, 0] := by
  obtain ⟨dig, ops, h, G, h1, h2, h3, -⟩ :=
    sha256_free (F := Fp) big_pallas abc (k := 1) le_rfl 0 ⟨0, 0, 0, 0, 0, 0, 0, 0⟩
  refine ⟨dig, ops, h, G, h1, h2, h3.trans ?_⟩
  simp [Vars.toList]

/-- Two blocks in two updates (C74). -/
example : (do
      let s ← Hasher.new
      let s ← s.update ((List.range 16).map fun j => some (abc j).toNat)
      s.update ((List.range 16).map fun j => some (abc j).toNat) : M Col Sel Fp Hasher) 0 = none :=
  update_twice_fails _ _ (by simp) (by simp) 0

/-- One word has no hash (C74). -/
example : (sha256 [some 1] : M Col Sel Fp _) 0 = none := sha256_partial_fails _ (by norm_num) 0

/-- The schedule of "abc" (C71): its last word. -/
example : ∃ words halves ops,
    (process ((List.range 16).map fun j => some (abc j).toNat) : M Col Sel Fp _) 0 =
        some ((words, halves), 1, ops) ∧
      (words.map ABits.bits)[63]? = some 0x12b1edeb ∧
      ∃ G : Grid Col Fp, Honest G ops ∧ Sat gates G ops ∧ SatLookup lookup G ops 0 := by
  obtain ⟨words, halves, ops, h, hw, -, hG⟩ := process_complete (F := Fp) big_pallas abc 0
  refine ⟨words, halves, ops, h, ?_, hG⟩
  rw [hw, List.getElem?_map, List.getElem?_range (by norm_num), Option.map_some,
    abc_schedule 63 (by norm_num)]
  decide +kernel

/-- The constraints of the schedule of "abc" accept sixty-four times the word 7 (C72). -/
example : ∃ words halves ops,
    (process ((List.range 16).map fun j => some (abc j).toNat) : M Col Sel Fp _) 0 =
        some ((words, halves), 1, ops) ∧
      ∃ G : Grid Col Fp, Sat gates G ops ∧ SatLookup lookup G ops 0 ∧
        words.map (fun c => G.at c.cell) = List.replicate 64 7 := by
  obtain ⟨words, halves, ops, h, G, h1, h2, h3, -⟩ :=
    process_free (F := Fp) big_pallas abc (fun _ => 7) 0
  refine ⟨words, halves, ops, h, G, h1, h2, h3.trans ?_⟩
  rw [List.map_const', List.length_range]
  rfl

/-! ## The functions

The words of the first round for "abc" before any additions: `A`, `B`, `C` and `E`, `F`, `G` of the
initial hash value. -/

/-- `D, C, B, A`, then zeros. -/
def wA (j : ℕ) : ℕ := [0xa54ff53a, 0x3c6ef372, 0xbb67ae85, 0x6a09e667].getD j 0

/-- `H, G, F, E`, then zeros. -/
def wE (j : ℕ) : ℕ := [0x5be0cd19, 0x1f83d9ab, 0x9b05688c, 0x510e527f].getD j 0

theorem bd_of {l : List ℕ} (h : ∀ x ∈ l, x < 2 ^ 32) (j : ℕ) : l.getD j 0 < 2 ^ 32 := by
  by_cases hj : j < l.length
  · rw [List.getD_eq_getElem _ _ hj]
    exact h _ (List.getElem_mem hj)
  · rw [List.getD_eq_default _ _ (by omega)]
    norm_num

theorem bdA : Bd wA := bd_of (by decide +kernel)
theorem bdE : Bd wE := bd_of (by decide +kernel)

/-- The words of the schedule. -/
def wW (_ : ℕ) : ℕ := 0x61626380

theorem bdW : Bd wW := fun _ => by norm_num [wW]

/-- The assignment of the initial region 0, the schedule 1 and the rounds 2. -/
noncomputable def grid : Grid Col Fp := fun r =>
  if r = 0 then initG wA wE else if r = 1 then schedG wW else compG wA wE wW

theorem world : World grid 0 1 2 wA wE wW := ⟨rfl, rfl, rfl⟩

theorem ok_comp {α : Type} {x : Wr Fp α} (h : All (CP 0 1 2 wA wE wW) x) (reg : ℕ) :
    Ok grid x.2 reg where
  sat := sat_of fun op hop => (h op hop).1 _ _ _ _ bdA bdE bdW world
  lookup := by
    intro row
    show [grid reg a0 (row + 0), grid reg a1 (row + 0), grid reg a2 (row + 0)] ∈ (table : List (List Fp))
    unfold grid
    split_ifs
    exacts [initG_mem _ _ _, schedG_mem _ _, compG_mem _ _ _ _]

theorem gates0 : RoundGates Fp 0 1 2 wA wE wW 0 := roundGates big_pallas (by norm_num)

/-- The hypotheses of `decomposeA_sound` and `upperSigma0_sound` are met by the word `A` of the first
round and its `Σ_0`. -/
example : ∃ w : Word,
    IsWord grid (decomposeA 0 (aRow 3) 0x6a09e667 : Wr Fp _).1.dense w ∧
    IsWord grid (assignUpperSigma0 2 0 (aVar 0 (aRow 3) 0x6a09e667) : Wr Fp _).1 (bsig0 w) := by
  obtain ⟨w, h1, -, h3⟩ := decomposeA_sound big_pallas (ok_comp (decA_all (r0 := 0) (rs := 1)
    (rc := 2) (A := wA) (E := wE) (W := wW) big_pallas (j := 3) (by norm_num)) 0) fun _ h => h
  exact ⟨w, h1, upperSigma0_sound big_pallas (ok_comp (us0_all (by norm_num) (bdA 3) gates0) 2)
    (h3 _ rfl) fun _ h => h⟩

/-- The same for `E`: `decomposeE_sound`, `upperSigma1_sound`. -/
example : ∃ w : Word,
    IsWord grid (decomposeE 0 (eRow 3) 0x510e527f : Wr Fp _).1.dense w ∧
    IsWord grid (assignUpperSigma1 2 0 (eVar 0 (eRow 3) 0x510e527f) : Wr Fp _).1 (bsig1 w) := by
  obtain ⟨w, h1, -, h3⟩ := decomposeE_sound big_pallas (ok_comp (decE_all (r0 := 0) (rs := 1)
    (rc := 2) (A := wA) (E := wE) (W := wW) big_pallas (j := 3) (by norm_num)) 0) fun _ h => h
  exact ⟨w, h1, upperSigma1_sound big_pallas (ok_comp (us1_all (by norm_num) (bdE 3) gates0) 2)
    (h3 _ rfl) fun _ h => h⟩

/-- `decomposeFG_sound` for `F` and `G`, `ch_sound` and `chNeg_sound` for `Ch(E, F, G)`. -/
example : ∃ x y z : Word,
    IsWord grid (eD 0 2 wE 3) x ∧ IsWord grid (eD 0 2 wE 2) y ∧ IsWord grid (eD 0 2 wE 1) z ∧
    IsWord grid (assignCh 2 0 (eS 0 2 wE 3) (eS 0 2 wE 2) : Wr Fp _).1 (x &&& y) ∧
    IsWord grid (assignChNeg 2 0 (eS 0 2 wE 3) (eS 0 2 wE 1) : Wr Fp _).1 (~~~x &&& z) := by
  obtain ⟨x, hx, hx', -⟩ := decomposeE_sound big_pallas (ok_comp (decE_all (r0 := 0) (rs := 1)
    (rc := 2) (A := wA) (E := wE) (W := wW) big_pallas (j := 3) (by norm_num)) 0) fun _ h => h
  obtain ⟨y, hy, hy'⟩ := decomposeFG_sound big_pallas (ok_comp (decFG_all (r0 := 0) (rs := 1)
    (rc := 2) (A := wA) (E := wE) (W := wW) big_pallas (j := 2) (by norm_num)) 0) fun _ h => h
  obtain ⟨z, hz, hz'⟩ := decomposeFG_sound big_pallas (ok_comp (decFG_all (r0 := 0) (rs := 1)
    (rc := 2) (A := wA) (E := wE) (W := wW) big_pallas (j := 1) (by norm_num)) 0) fun _ h => h
  exact ⟨x, y, z, hx, hy, hz,
    ch_sound big_pallas (ok_comp (ch_all (by norm_num) gates0) 2) (hx' _ rfl) hy' fun _ h => h,
    chNeg_sound big_pallas (ok_comp (chNeg_all (by norm_num) gates0) 2) (hx' _ rfl) hz' fun _ h => h⟩

/-- `decomposeBC_sound` for `B` and `C`, `maj_sound` for `Maj(A, B, C)`. -/
example : ∃ x y z : Word,
    IsWord grid (aD 0 2 wA 3) x ∧ IsWord grid (aD 0 2 wA 2) y ∧ IsWord grid (aD 0 2 wA 1) z ∧
    IsWord grid (assignMaj 2 0 (aS 0 2 wA 3) (aS 0 2 wA 2) (aS 0 2 wA 1) : Wr Fp _).1 (maj x y z) := by
  obtain ⟨x, hx, hx', -⟩ := decomposeA_sound big_pallas (ok_comp (decA_all (r0 := 0) (rs := 1)
    (rc := 2) (A := wA) (E := wE) (W := wW) big_pallas (j := 3) (by norm_num)) 0) fun _ h => h
  obtain ⟨y, hy, hy'⟩ := decomposeBC_sound big_pallas (ok_comp (decBC_all (r0 := 0) (rs := 1)
    (rc := 2) (A := wA) (E := wE) (W := wW) big_pallas (j := 2) (by norm_num)) 0) fun _ h => h
  obtain ⟨z, hz, hz'⟩ := decomposeBC_sound big_pallas (ok_comp (decBC_all (r0 := 0) (rs := 1)
    (rc := 2) (A := wA) (E := wE) (W := wW) big_pallas (j := 1) (by norm_num)) 0) fun _ h => h
  exact ⟨x, y, z, hx, hy, hz,
    maj_sound big_pallas (ok_comp (maj_all (by norm_num) gates0) 2) (hx' _ rfl) hy' hz' fun _ h => h⟩

/-- The cells of the word `A` of the first round hold its value. -/
example : IsWord grid (aD 0 2 wA 3) 0x6a09e667 := by
  have h0 : grid.at (aD 0 2 wA 3).lo.cell = ((slice (wA 3) 0 16 : ℕ) : Fp) :=
    holdsA (r0 := 0) (rs := 1) (rc := 2) (j := 3) (k := 0) (by norm_num) (by norm_num) (c := a7) rfl
      grid wA wE wW world
  have h1 : grid.at (aD 0 2 wA 3).hi.cell = ((slice (wA 3) 16 32 : ℕ) : Fp) :=
    holdsA (r0 := 0) (rs := 1) (rc := 2) (j := 3) (k := 1) (by norm_num) (by norm_num) (c := a7) rfl
      grid wA wE wW world
  unfold IsWord
  rw [h0, h1]
  decide +kernel

/-- All selectors of the schedule, then the operations of `x`. -/
abbrev after {α : Type} (x : Wr Fp α) : Wr Fp α := enableSchedule 1 >>= fun _ => x

theorem ok_sched {α : Type} {x : Wr Fp α} (h : All (SP 1 wW) x) : Ok grid x.2 1 where
  sat := sat_of fun op hop => (h op hop).1 _ _ bdW rfl
  lookup := by
    intro row
    have := schedG_mem (F := Fp) wW (row + 0)
    exact this

/-- `subregion1Word_sound` for `W_5`. -/
example : ∃ w : Word, grid 1 a5 (getWordRow 5) = ((w.toNat : ℕ) : Fp) ∧
    IsWord grid (subregion1Word 1 (wW 5) 5 : Wr Fp _).1 (ssig0 w) :=
  subregion1Word_sound big_pallas (ok_sched (x := after (subregion1Word 1 (wW 5) 5))
      (All.bind (selectors_sp big_pallas) (sub1_all (i := 5) (by norm_num) (by norm_num) (bdW 5))))
    (List.mem_append_left _ (by decide)) (List.mem_append_left _ (by decide))
    fun _ h => List.mem_append_right _ h

/-- `subregion2Word_sound` for `W_20`. -/
example : ∃ w : Word, grid 1 a5 (getWordRow 20) = ((w.toNat : ℕ) : Fp) ∧
    IsWord grid (lowerSigma0V2 1 (decomposeWord 1 (wW 20) 20 : Wr Fp _).1 : Wr Fp _).1 (ssig0 w) ∧
    IsWord grid (lowerSigma1V2 1 (decomposeWord 1 (wW 20) 20 : Wr Fp _).1 : Wr Fp _).1 (ssig1 w) := by
  have hd := dec2_all (F := Fp) (reg := 1) (W := wW) (i := 20) (by norm_num) (by norm_num)
  have bit (v : ℕ) (hv : v < 2) : ((v : ℕ) : Fp) = 0 ∨ ((v : ℕ) : Fp) = 1 := by
    obtain rfl | rfl : v = 0 ∨ v = 1 := by omega
    · exact Or.inl Nat.cast_zero
    · exact Or.inr Nat.cast_one
  refine subregion2Word_sound big_pallas (ok_sched (x := after
      (lowerSigma0V2 1 (word2 1 (wW 20) 20) >>= fun _ => lowerSigma1V2 1 (word2 1 (wW 20) 20)))
      (All.bind (selectors_sp big_pallas) (All.bind (ls0v2_all (i := 20) (by norm_num) (by norm_num) (bdW 20))
        (ls1v2_all (i := 20) (by norm_num) (by norm_num) (bdW 20))))) (by norm_num) (by norm_num)
    (List.mem_append_left _ (by decide)) (List.mem_append_left _ (by decide))
    (List.mem_append_left _ (by decide)) ?_ ?_
    (fun _ h => List.mem_append_right _ (List.mem_append_left _ h))
    (fun _ h => List.mem_append_right _ (List.mem_append_right _ h))
  · rw [show grid.at (decomposeWord 1 (wW 20) 20 : Wr Fp _).1.e.cell =
      ((slice (wW 20) 17 18 : ℕ) : Fp) from (hd (.advice _ _) (by
        simp [decomposeWord, assignBits, withLookup, bind, pure])).2 grid rfl]
    exact bit _ (slice_lt _ _ _)
  · rw [show grid.at (decomposeWord 1 (wW 20) 20 : Wr Fp _).1.f.cell =
      ((slice (wW 20) 18 19 : ℕ) : Fp) from (hd (.advice _ _) (by
        simp [decomposeWord, assignBits, withLookup, bind, pure])).2 grid rfl]
    exact bit _ (slice_lt _ _ _)

/-- `subregion3Word_sound` for `W_50`. -/
example : ∃ w : Word, grid 1 a5 (getWordRow 50) = ((w.toNat : ℕ) : Fp) ∧
    IsWord grid (lowerSigma1 1 (decomposeSubregion3Word 1 (wW 50) 50 : Wr Fp _).1 : Wr Fp _).1
      (ssig1 w) :=
  subregion3Word_sound big_pallas (ok_sched (x := after
      (decomposeSubregion3Word 1 (wW 50) 50 >>= fun _ => lowerSigma1 1 (word3 1 (wW 50) 50)))
      (All.bind (selectors_sp big_pallas) (All.bind (dec3_all (i := 50) (by norm_num) (by norm_num))
        (ls1_all (i := 50) (by norm_num) (by norm_num) (bdW 50)))))
    (List.mem_append_left _ (by decide)) (List.mem_append_left _ (by decide))
    (fun _ h => List.mem_append_right _ (List.mem_append_left _ h))
    (fun _ h => List.mem_append_right _ (List.mem_append_right _ h))

end Verif.Sha256.Example
