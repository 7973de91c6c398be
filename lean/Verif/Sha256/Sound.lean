import Verif.Sha256.GateSound

/-!
# The function blocks of the SHA-256 chip are sound (C70)
-/

namespace Verif.Sha256

open Verif.Region Verif.Sha256.Spec Col

variable {F : Type} [Field F]

attribute [local irreducible] table

/-- The constraints of a layout on one region, with the lookups. -/
structure Ok (G : Grid Col F) (ops : List (Op Col Sel F)) (reg : ℕ) : Prop where
  sat : Sat gates G ops
  lookup : SatLookup lookup G ops reg

variable {G : Grid Col F} {ops : List (Op Col Sel F)} {reg : ℕ}

theorem Ok.mem (h : Ok G ops reg) (row : ℤ) :
    [G reg a0 row, G reg a1 row, G reg a2 row] ∈ (table : List (List F)) := by
  have : [G reg a0 (row + 0), G reg a1 (row + 0), G reg a2 (row + 0)] ∈ (table : List (List F)) :=
    h.lookup row
  rwa [add_zero] at this

theorem Ok.gate (h : Ok G ops reg) {s : Sel} {f : (Col → ℤ → F) → List F} (i : ℕ)
    (hm : (gates : Gates Col Sel F)[i]? = some (s, f)) {row : ℤ} (he : .enable s reg row ∈ ops) :
    ∀ p ∈ f (G.query reg row), p = 0 :=
  h.sat.gates _ (List.mem_of_getElem? hm) _ _ he

/-- The two halves hold the word `w`. -/
def IsWord (G : Grid Col F) (h : Halves) (w : Word) : Prop :=
  G.at h.lo.cell + G.at h.hi.cell * 2 ^ 16 = ((w.toNat : ℕ) : F)

/-- The two spread halves hold the spread form of the word `w`. -/
def IsSpread (G : Grid Col F) (h : Halves) (w : Word) : Prop :=
  G.at h.lo.cell + G.at h.hi.cell * 2 ^ 32 = ((spreadBits 32 w.toNat : ℕ) : F)

/-- The pieces hold the spread forms of the pieces of `w`. -/
structure IsAbcd (G : Grid Col F) (p : AbcdVar) (w : Word) : Prop where
  a : G.at p.a.spread.cell = sp F 2 (slice w.toNat 0 2)
  b : G.at p.b.spread.cell = sp F 11 (slice w.toNat 2 13)
  cLo : G.at p.cLo.spread.cell = sp F 3 (slice w.toNat 13 16)
  cMid : G.at p.cMid.spread.cell = sp F 3 (slice w.toNat 16 19)
  cHi : G.at p.cHi.spread.cell = sp F 3 (slice w.toNat 19 22)
  d : G.at p.d.spread.cell = sp F 10 (slice w.toNat 22 32)

/-- See `IsAbcd`. -/
structure IsEfgh (G : Grid Col F) (p : EfghVar) (w : Word) : Prop where
  aLo : G.at p.aLo.spread.cell = sp F 3 (slice w.toNat 0 3)
  aHi : G.at p.aHi.spread.cell = sp F 3 (slice w.toNat 3 6)
  bLo : G.at p.bLo.spread.cell = sp F 2 (slice w.toNat 6 8)
  bHi : G.at p.bHi.spread.cell = sp F 3 (slice w.toNat 8 11)
  c : G.at p.c.spread.cell = sp F 14 (slice w.toNat 11 25)
  d : G.at p.d.spread.cell = sp F 7 (slice w.toNat 25 32)

/-- The number of a word. -/
theorem exists_word {w : ℕ} (hw : w < 2 ^ 32) : ∃ x : Word, x.toNat = w :=
  ⟨BitVec.ofNat 32 w, by rw [BitVec.toNat_ofNat, Nat.mod_eq_of_lt hw]⟩

/-- `decompose_abcd` with the halves: there is a word in them. -/
theorem decomposeA_sound (hF : Big F) (h : Ok G ops reg) {row val : ℕ}
    (hs : ∀ op ∈ (decomposeA reg row val : Wr F _).2, op ∈ ops) :
    ∃ w : Word, IsWord G (decomposeA reg row val : Wr F _).1.dense w ∧
      (∀ s, (decomposeA reg row val : Wr F _).1.spread = some s → IsSpread G s w) ∧
      ∀ p, (decomposeA reg row val : Wr F _).1.pieces = some p → IsAbcd G p w := by
  have he : Op.enable .abcd reg (row : ℤ) ∈ ops := hs _ (by
    simp [decomposeA, decomposeAbcd, assignWordHalves, withoutLookup, withLookup, assignBits,
      enableSel, bind, pure])
  have hg := h.gate 9 rfl he
  obtain ⟨w, w32, h1, h2, h3, h4, h5, h6, h7, h8⟩ := abcd_sound hF
    (h.mem (row + 0)) (h.mem (row + 1)) hg
  obtain ⟨w, rfl⟩ := exists_word w32
  refine ⟨w, ?_, ?_, ?_⟩
  · simpa [IsWord, Grid.query, Grid.at, decomposeA, decomposeAbcd, assignWordHalves,
      withoutLookup, withLookup, assignBits, enableSel, bind, pure] using h1
  · rintro s ⟨⟩
    simpa [IsSpread, Grid.query, Grid.at, decomposeA, decomposeAbcd, assignWordHalves,
      withoutLookup, withLookup, assignBits, enableSel, bind, pure] using h2
  · rintro p ⟨⟩
    constructor <;>
    simpa [Grid.query, Grid.at, decomposeA, decomposeAbcd, assignWordHalves,
      withoutLookup, withLookup, assignBits, enableSel, bind, pure]

/-- `decompose_efgh` with the halves: there is a word in them. -/
theorem decomposeE_sound (hF : Big F) (h : Ok G ops reg) {row val : ℕ}
    (hs : ∀ op ∈ (decomposeE reg row val : Wr F _).2, op ∈ ops) :
    ∃ w : Word, IsWord G (decomposeE reg row val : Wr F _).1.dense w ∧
      (∀ s, (decomposeE reg row val : Wr F _).1.spread = some s → IsSpread G s w) ∧
      ∀ p, (decomposeE reg row val : Wr F _).1.pieces = some p → IsEfgh G p w := by
  have he : Op.enable .efgh reg (row : ℤ) ∈ ops := hs _ (by
    simp [decomposeE, decomposeEfgh, assignWordHalves, withoutLookup, withLookup, assignBits,
      enableSel, bind, pure])
  have hg := h.gate 10 rfl he
  obtain ⟨w, w32, h1, h2, h3, h4, h5, h6, h7, h8⟩ := efgh_sound hF
    (h.mem (row + 1)) (h.mem (row + 0)) hg
  obtain ⟨w, rfl⟩ := exists_word w32
  refine ⟨w, ?_, ?_, ?_⟩
  · simpa [IsWord, Grid.query, Grid.at, decomposeE, decomposeEfgh, assignWordHalves,
      withoutLookup, withLookup, assignBits, enableSel, bind, pure] using h1
  · rintro s ⟨⟩
    simpa [IsSpread, Grid.query, Grid.at, decomposeE, decomposeEfgh, assignWordHalves,
      withoutLookup, withLookup, assignBits, enableSel, bind, pure] using h2
  · rintro p ⟨⟩
    constructor <;>
    simpa [Grid.query, Grid.at, decomposeE, decomposeEfgh, assignWordHalves,
      withoutLookup, withLookup, assignBits, enableSel, bind, pure]

/-- `decompose_b` and `decompose_c`. -/
theorem decomposeBC_sound (hF : Big F) (h : Ok G ops reg) {row val : ℕ}
    (hs : ∀ op ∈ (decomposeBC reg row val : Wr F _).2, op ∈ ops) :
    ∃ w : Word, IsWord G (decomposeBC reg row val : Wr F _).1.dense w ∧
      IsSpread G (decomposeBC reg row val : Wr F _).1.spread w := by
  obtain ⟨w, h1, h2, -⟩ := decomposeA_sound hF h (row := row) (val := val) hs
  exact ⟨w, h1, h2 _ rfl⟩

/-- `decompose_f` and `decompose_g`. -/
theorem decomposeFG_sound (hF : Big F) (h : Ok G ops reg) {row val : ℕ}
    (hs : ∀ op ∈ (decomposeFG reg row val : Wr F _).2, op ∈ ops) :
    ∃ w : Word, IsWord G (decomposeFG reg row val : Wr F _).1.dense w ∧
      IsSpread G (decomposeFG reg row val : Wr F _).1.spread w := by
  obtain ⟨w, h1, h2, -⟩ := decomposeE_sound hF h (row := row) (val := val) hs
  exact ⟨w, h1, h2 _ rfl⟩

/-- The outputs of `assign_spread_outputs`. -/
theorem outputs_sound (hF : Big F) (h : Ok G ops reg) {k v : ℕ} {r : ℕ} (hr : r < 2 ^ 64)
    (hs : ∀ op ∈ (assignSpreadOutputs reg (k + 1) v : Wr F _).2, op ∈ ops)
    (hw : witness (G reg a2 k) (G reg a2 (k + 1)) (G reg a2 (k + 1 + 1)) (G reg a3 (k + 1)) = (r : F)) :
    G.at (assignSpreadOutputs reg (k + 1) v : Wr F _).1.1.lo.cell = (evLo r : ℕ) ∧
      G.at (assignSpreadOutputs reg (k + 1) v : Wr F _).1.2.lo.cell = (odLo r : ℕ) ∧
      G.at (assignSpreadOutputs reg (k + 1) v : Wr F _).1.1.hi.cell = (evHi r : ℕ) ∧
      G.at (assignSpreadOutputs reg (k + 1) v : Wr F _).1.2.hi.cell = (odHi r : ℕ) := by
  have he : G reg a3 (k + 1) = G reg a2 (k + 1 + 2) := by
    have := h.sat.equal ⟨reg, a3, (k + 1 : ℕ)⟩ ⟨reg, a2, (k + 1 + 2 : ℕ)⟩ (hs _ (by
      simp [assignSpreadOutputs, withLookup, assignBits, ABits.copy, bind, pure]))
    simpa [Grid.at] using this
  rw [he] at hw
  have := out_sound hF hr (h.mem k) (h.mem (k + 1)) (h.mem (k + 1 + 1)) (h.mem (k + 1 + 2)) hw
  simpa [Grid.at, assignSpreadOutputs, withLookup, assignBits, ABits.copy, bind, pure] using this

theorem word_eq {x y : F} {w : ℕ} {v : Word} {lo hi : ℕ} (hx : x = (lo : ℕ)) (hy : y = (hi : ℕ))
    (h : lo + 2 ^ 16 * hi = w) (hv : w = v.toNat) : x + y * 2 ^ 16 = ((v.toNat : ℕ) : F) := by
  rw [hx, hy, ← hv, ← h]
  push_cast
  ring

/-- `Σ_0`. -/
theorem upperSigma0_sound (hF : Big F) (h : Ok G ops reg) {i : ℕ} {p : AbcdVar} {w : Word}
    (hp : IsAbcd G p w) (hs : ∀ op ∈ (assignUpperSigma0 reg i p : Wr F _).2, op ∈ ops) :
    IsWord G (assignUpperSigma0 reg i p : Wr F _).1 (bsig0 w) := by
  have e : rowS0 i = 24 * i + 16 + 1 := rfl
  have he : Op.enable .us0 reg (rowS0 i : ℤ) ∈ ops := hs _ (by
    simp [assignUpperSigma0, enableSel, ABits.copy, bind])
  have hg := h.gate 11 rfl he
  have c1 := h.sat.equal ⟨reg, a3, (rowS0 i + 1 : ℕ)⟩ p.a.spread.cell (hs _ (by
    simp [assignUpperSigma0, enableSel, ABits.copy, bind]))
  have c2 := h.sat.equal ⟨reg, a5, (rowS0 i : ℕ)⟩ p.b.spread.cell (hs _ (by
    simp [assignUpperSigma0, enableSel, ABits.copy, bind]))
  have c3 := h.sat.equal ⟨reg, a3, (rowS0 i - 1 : ℕ)⟩ p.cLo.spread.cell (hs _ (by
    simp [assignUpperSigma0, enableSel, ABits.copy, bind]))
  have c4 := h.sat.equal ⟨reg, a4, (rowS0 i - 1 : ℕ)⟩ p.cMid.spread.cell (hs _ (by
    simp [assignUpperSigma0, enableSel, ABits.copy, bind]))
  have c5 := h.sat.equal ⟨reg, a4, (rowS0 i + 1 : ℕ)⟩ p.cHi.spread.cell (hs _ (by
    simp [assignUpperSigma0, enableSel, ABits.copy, bind]))
  have c6 := h.sat.equal ⟨reg, a4, (rowS0 i : ℕ)⟩ p.d.spread.cell (hs _ (by
    simp [assignUpperSigma0, enableSel, ABits.copy, bind]))
  rw [hp.a] at c1
  rw [hp.b] at c2
  rw [hp.cLo] at c3
  rw [hp.cMid] at c4
  rw [hp.cHi] at c5
  rw [hp.d] at c6
  have ho : ∀ op ∈ (assignSpreadOutputs reg (24 * i + 16 + 1) p.xor : Wr F _).2, op ∈ ops := by
    intro op hop
    refine hs op ?_
    simp only [assignUpperSigma0, assignSigmaOutputs, bind, pure, List.mem_append, e]
    simp [hop]
  generalize hk : 24 * i + 16 = k at *
  simp only [e, Nat.add_sub_cancel, Grid.at] at c1 c2 c3 c4 c5 c6
  simp only [gUs0, List.mem_cons, List.not_mem_nil, or_false, forall_eq, Grid.query, e] at hg
  push_cast at c1 c2 c3 c4 c5 c6 hg
  rw [add_neg_cancel_right, add_zero] at hg
  rw [c1, c2, c3, c4, c5, c6] at hg
  have hw : witness (G reg a2 k) (G reg a2 (k + 1)) (G reg a2 (k + 1 + 1)) (G reg a3 (k + 1))
      = ((rA w.toNat : ℕ) : F) := by
    simp only [rA, xorUpperSigma, cat]
    simp only [sp] at hg
    push_cast
    linear_combination hg
  obtain ⟨q0, -, q2, -⟩ := outputs_sound hF h (rA_lt _) ho hw
  rw [rA_eq _ w.isLt] at q0 q2
  have hres : (assignUpperSigma0 reg i p : Wr F _).1
      = (assignSpreadOutputs reg (k + 1) p.xor : Wr F _).1.1 := by
    rw [← hk]; rfl
  rw [hres]
  exact word_eq q0 q2 (rS0_spec w) rfl

/-- `Σ_1`. -/
theorem upperSigma1_sound (hF : Big F) (h : Ok G ops reg) {i : ℕ} {p : EfghVar} {w : Word}
    (hp : IsEfgh G p w) (hs : ∀ op ∈ (assignUpperSigma1 reg i p : Wr F _).2, op ∈ ops) :
    IsWord G (assignUpperSigma1 reg i p : Wr F _).1 (bsig1 w) := by
  have e : rowS1 i = 24 * i + 2 + 1 := rfl
  have he : Op.enable .us1 reg (rowS1 i : ℤ) ∈ ops := hs _ (by
    simp [assignUpperSigma1, enableSel, ABits.copy, bind])
  have hg := h.gate 12 rfl he
  have c1 := h.sat.equal ⟨reg, a3, (rowS1 i + 1 : ℕ)⟩ p.aLo.spread.cell (hs _ (by
    simp [assignUpperSigma1, enableSel, ABits.copy, bind]))
  have c2 := h.sat.equal ⟨reg, a4, (rowS1 i + 1 : ℕ)⟩ p.aHi.spread.cell (hs _ (by
    simp [assignUpperSigma1, enableSel, ABits.copy, bind]))
  have c3 := h.sat.equal ⟨reg, a3, (rowS1 i - 1 : ℕ)⟩ p.bLo.spread.cell (hs _ (by
    simp [assignUpperSigma1, enableSel, ABits.copy, bind]))
  have c4 := h.sat.equal ⟨reg, a4, (rowS1 i - 1 : ℕ)⟩ p.bHi.spread.cell (hs _ (by
    simp [assignUpperSigma1, enableSel, ABits.copy, bind]))
  have c5 := h.sat.equal ⟨reg, a5, (rowS1 i : ℕ)⟩ p.c.spread.cell (hs _ (by
    simp [assignUpperSigma1, enableSel, ABits.copy, bind]))
  have c6 := h.sat.equal ⟨reg, a4, (rowS1 i : ℕ)⟩ p.d.spread.cell (hs _ (by
    simp [assignUpperSigma1, enableSel, ABits.copy, bind]))
  rw [hp.aLo] at c1
  rw [hp.aHi] at c2
  rw [hp.bLo] at c3
  rw [hp.bHi] at c4
  rw [hp.c] at c5
  rw [hp.d] at c6
  have ho : ∀ op ∈ (assignSpreadOutputs reg (24 * i + 2 + 1) p.xor : Wr F _).2, op ∈ ops := by
    intro op hop
    refine hs op ?_
    simp only [assignUpperSigma1, assignSigmaOutputs, bind, pure, List.mem_append, e]
    simp [hop]
  generalize hk : 24 * i + 2 = k at *
  simp only [e, Nat.add_sub_cancel, Grid.at] at c1 c2 c3 c4 c5 c6
  simp only [gUs1, List.mem_cons, List.not_mem_nil, or_false, forall_eq, Grid.query, e] at hg
  push_cast at c1 c2 c3 c4 c5 c6 hg
  rw [add_neg_cancel_right, add_zero] at hg
  rw [c1, c2, c3, c4, c5, c6] at hg
  have hw : witness (G reg a2 k) (G reg a2 (k + 1)) (G reg a2 (k + 1 + 1)) (G reg a3 (k + 1))
      = ((rE w.toNat : ℕ) : F) := by
    simp only [rE, xorUpperSigma, cat]
    simp only [sp] at hg
    push_cast
    linear_combination hg
  obtain ⟨q0, -, q2, -⟩ := outputs_sound hF h (rE_lt _) ho hw
  rw [rE_eq _ w.isLt] at q0 q2
  have hres : (assignUpperSigma1 reg i p : Wr F _).1
      = (assignSpreadOutputs reg (k + 1) p.xor : Wr F _).1.1 := by
    rw [← hk]; rfl
  rw [hres]
  exact word_eq q0 q2 (rS1_spec w) rfl

/-- The first half of `Ch`. -/
theorem ch_sound (hF : Big F) (h : Ok G ops reg) {i : ℕ} {e f : Halves} {x y : Word}
    (hx : IsSpread G e x) (hy : IsSpread G f y)
    (hs : ∀ op ∈ (assignCh reg i e f : Wr F _).2, op ∈ ops) :
    IsWord G (assignCh reg i e f : Wr F _).1 (x &&& y) := by
  have hrow : rowCh i = 24 * i + 6 + 1 := rfl
  have he : Op.enable .ch reg (rowCh i : ℤ) ∈ ops := hs _ (by
    simp [assignCh, enableSel, ABits.copy, bind])
  have hg := h.gate 13 rfl he
  have c1 := h.sat.equal ⟨reg, a3, (rowCh i - 1 : ℕ)⟩ e.lo.cell (hs _ (by
    simp [assignCh, enableSel, ABits.copy, bind]))
  have c2 := h.sat.equal ⟨reg, a4, (rowCh i - 1 : ℕ)⟩ e.hi.cell (hs _ (by
    simp [assignCh, enableSel, ABits.copy, bind]))
  have c3 := h.sat.equal ⟨reg, a3, (rowCh i + 1 : ℕ)⟩ f.lo.cell (hs _ (by
    simp [assignCh, enableSel, ABits.copy, bind]))
  have c4 := h.sat.equal ⟨reg, a4, (rowCh i + 1 : ℕ)⟩ f.hi.cell (hs _ (by
    simp [assignCh, enableSel, ABits.copy, bind]))
  set v := e.spreadValue + f.spreadValue with hv
  have ho : ∀ op ∈ (assignSpreadOutputs reg (24 * i + 6 + 1) v : Wr F _).2, op ∈ ops := by
    intro op hop
    refine hs op ?_
    simp only [assignCh, bind, pure, List.mem_append, hrow, ← hv]
    simp [hop]
  have hres : (assignCh reg i e f : Wr F _).1
      = (assignSpreadOutputs reg (24 * i + 6 + 1) v : Wr F _).1.2 := rfl
  rw [hres]
  generalize hk : 24 * i + 6 = k at *
  unfold IsSpread at hx hy
  rw [← c1, ← c2] at hx
  rw [← c3, ← c4] at hy
  simp only [hrow, Nat.add_sub_cancel, Grid.at] at hx hy
  simp only [gCh, List.mem_cons, List.not_mem_nil, or_false, forall_eq, Grid.query, hrow] at hg
  push_cast at hx hy hg
  rw [add_neg_cancel_right, add_zero] at hg
  have hw : witness (G reg a2 k) (G reg a2 (k + 1)) (G reg a2 (k + 1 + 1)) (G reg a3 (k + 1))
      = ((spW x.toNat + spW y.toNat : ℕ) : F) := by
    rw [spW_eq _ x.isLt, spW_eq _ y.isLt]
    push_cast
    unfold witness
    simp only [halves] at hg
    linear_combination hx + hy - hg
  obtain ⟨-, q1, -, q3⟩ := outputs_sound hF h (sums_lt x.toNat y.toNat 0).1 ho hw
  refine word_eq q1 q3 (odd_of_sum₂ x.isLt y.isLt (by rw [spW_eq _ x.isLt, spW_eq _ y.isLt])) ?_
  rw [BitVec.toNat_and]

/-- The second half of `Ch`. -/
theorem chNeg_sound (hF : Big F) (h : Ok G ops reg) {i : ℕ} {e g : Halves} {x z : Word}
    (hx : IsSpread G e x) (hz : IsSpread G g z)
    (hs : ∀ op ∈ (assignChNeg reg i e g : Wr F _).2, op ∈ ops) :
    IsWord G (assignChNeg reg i e g : Wr F _).1 (~~~x &&& z) := by
  have hrow : rowChNeg i = 24 * i + 10 + 1 := rfl
  have he : Op.enable .chNeg reg (rowChNeg i : ℤ) ∈ ops := hs _ (by
    simp [assignChNeg, enableSel, ABits.copy, assignBits, bind])
  have hg := h.gate 14 rfl he
  have c1 := h.sat.equal ⟨reg, a5, (rowChNeg i - 1 : ℕ)⟩ e.lo.cell (hs _ (by
    simp [assignChNeg, enableSel, ABits.copy, assignBits, bind]))
  have c2 := h.sat.equal ⟨reg, a5, (rowChNeg i : ℕ)⟩ e.hi.cell (hs _ (by
    simp [assignChNeg, enableSel, ABits.copy, assignBits, bind]))
  have c3 := h.sat.equal ⟨reg, a3, (rowChNeg i + 1 : ℕ)⟩ g.lo.cell (hs _ (by
    simp [assignChNeg, enableSel, ABits.copy, assignBits, bind]))
  have c4 := h.sat.equal ⟨reg, a4, (rowChNeg i + 1 : ℕ)⟩ g.hi.cell (hs _ (by
    simp [assignChNeg, enableSel, ABits.copy, assignBits, bind]))
  set v := negateSpread 16 e.lo.bits + 2 ^ 32 * negateSpread 16 e.hi.bits + g.spreadValue with hv
  have ho : ∀ op ∈ (assignSpreadOutputs reg (24 * i + 10 + 1) v : Wr F _).2, op ∈ ops := by
    intro op hop
    refine hs op ?_
    simp only [assignChNeg, bind, pure, List.mem_append, hrow, ← hv]
    simp [hop]
  have hres : (assignChNeg reg i e g : Wr F _).1
      = (assignSpreadOutputs reg (24 * i + 10 + 1) v : Wr F _).1.2 := rfl
  rw [hres]
  generalize hk : 24 * i + 10 = k at *
  unfold IsSpread at hx hz
  rw [← c1, ← c2] at hx
  rw [← c3, ← c4] at hz
  simp only [hrow, Nat.add_sub_cancel, Grid.at] at hx hz
  simp only [gChNeg, List.mem_cons, List.not_mem_nil, or_false, forall_eq_or_imp, forall_eq,
    Grid.query, hrow] at hg
  push_cast at hx hz hg
  rw [add_neg_cancel_right, add_zero] at hg
  obtain ⟨g1, g2, g3⟩ := hg
  have hneg := ngW_eq _ x.isLt
  have hsum : ngW x.toNat + spW x.toNat = maskEven32 + 2 ^ 32 * maskEven32 := by
    have h1 := negateSpread_add 16 (slice x.toNat 0 16) (slice_lt _ _ _)
    have h2 := negateSpread_add 16 (slice x.toNat 16 32) (slice_lt _ _ _)
    simp only [ngW, spW, maskEven32, Nat.reducePow] at *
    omega
  have hsum' := congrArg (Nat.cast (R := F)) hsum
  rw [spW_eq _ x.isLt] at hsum'
  push_cast at hsum'
  have hw : witness (G reg a2 k) (G reg a2 (k + 1)) (G reg a2 (k + 1 + 1)) (G reg a3 (k + 1))
      = ((ngW x.toNat + spW z.toNat : ℕ) : F) := by
    rw [spW_eq _ z.isLt]
    push_cast
    unfold witness
    simp only [halves] at g3
    linear_combination hz - g3 + g1 + 2 ^ 32 * g2 - hx - hsum'
  obtain ⟨-, q1, -, q3⟩ := outputs_sound hF h (sums_lt x.toNat z.toNat 0).2.1 ho hw
  refine word_eq q1 q3 (odd_of_sum₂ (x := 2 ^ 32 - 1 - x.toNat) (by omega) z.isLt
    (by rw [hneg, spW_eq _ z.isLt])) ?_
  rw [BitVec.toNat_and, BitVec.toNat_not]

/-- `Maj`. -/
theorem maj_sound (hF : Big F) (h : Ok G ops reg) {i : ℕ} {a b c : Halves} {x y z : Word}
    (hx : IsSpread G a x) (hy : IsSpread G b y) (hz : IsSpread G c z)
    (hs : ∀ op ∈ (assignMaj reg i a b c : Wr F _).2, op ∈ ops) :
    IsWord G (assignMaj reg i a b c : Wr F _).1 (maj x y z) := by
  have hrow : rowMaj i = 24 * i + 20 + 1 := rfl
  have he : Op.enable .maj reg (rowMaj i : ℤ) ∈ ops := hs _ (by
    simp [assignMaj, enableSel, ABits.copy, bind])
  have hg := h.gate 15 rfl he
  have c1 := h.sat.equal ⟨reg, a4, (rowMaj i - 1 : ℕ)⟩ a.lo.cell (hs _ (by
    simp [assignMaj, enableSel, ABits.copy, bind]))
  have c2 := h.sat.equal ⟨reg, a5, (rowMaj i - 1 : ℕ)⟩ a.hi.cell (hs _ (by
    simp [assignMaj, enableSel, ABits.copy, bind]))
  have c3 := h.sat.equal ⟨reg, a4, (rowMaj i : ℕ)⟩ b.lo.cell (hs _ (by
    simp [assignMaj, enableSel, ABits.copy, bind]))
  have c4 := h.sat.equal ⟨reg, a5, (rowMaj i : ℕ)⟩ b.hi.cell (hs _ (by
    simp [assignMaj, enableSel, ABits.copy, bind]))
  have c5 := h.sat.equal ⟨reg, a4, (rowMaj i + 1 : ℕ)⟩ c.lo.cell (hs _ (by
    simp [assignMaj, enableSel, ABits.copy, bind]))
  have c6 := h.sat.equal ⟨reg, a5, (rowMaj i + 1 : ℕ)⟩ c.hi.cell (hs _ (by
    simp [assignMaj, enableSel, ABits.copy, bind]))
  set v := a.spreadValue + b.spreadValue + c.spreadValue with hv
  have ho : ∀ op ∈ (assignSpreadOutputs reg (24 * i + 20 + 1) v : Wr F _).2, op ∈ ops := by
    intro op hop
    refine hs op ?_
    simp only [assignMaj, bind, pure, List.mem_append, hrow, ← hv]
    simp [hop]
  have hres : (assignMaj reg i a b c : Wr F _).1
      = (assignSpreadOutputs reg (24 * i + 20 + 1) v : Wr F _).1.2 := rfl
  rw [hres]
  generalize hk : 24 * i + 20 = k at *
  unfold IsSpread at hx hy hz
  rw [← c1, ← c2] at hx
  rw [← c3, ← c4] at hy
  rw [← c5, ← c6] at hz
  simp only [hrow, Nat.add_sub_cancel, Grid.at] at hx hy hz
  simp only [gMaj, List.mem_cons, List.not_mem_nil, or_false, forall_eq, Grid.query, hrow] at hg
  push_cast at hx hy hz hg
  rw [add_neg_cancel_right, add_zero] at hg
  have hw : witness (G reg a2 k) (G reg a2 (k + 1)) (G reg a2 (k + 1 + 1)) (G reg a3 (k + 1))
      = ((spW x.toNat + spW y.toNat + spW z.toNat : ℕ) : F) := by
    rw [spW_eq _ x.isLt, spW_eq _ y.isLt, spW_eq _ z.isLt]
    push_cast
    unfold witness
    simp only [halves] at hg
    linear_combination hx + hy + hz - hg
  obtain ⟨-, q1, -, q3⟩ := outputs_sound hF h (sums_lt x.toNat y.toNat z.toNat).2.2 ho hw
  exact word_eq q1 q3 (maj_spec x y z) rfl

/-! ## The message schedule -/

theorem copy_eq (h : Ok G ops reg) {c : Col} {row : ℕ} {a : ABits}
    (hm : Op.equal ⟨reg, c, (row : ℕ)⟩ a.cell ∈ ops) : G reg c row = G.at a.cell :=
  h.sat.equal _ _ hm

/-- `σ_0` on `W_1, …, W_13`: the cell of the word holds a word, and the result is its `σ_0`. -/
theorem subregion1Word_sound (hF : Big F) (h : Ok G ops reg) {i val : ℕ}
    (h1 : Op.enable .dec1 reg (getWordRow i : ℕ) ∈ ops)
    (h2 : Op.enable .ls0 reg (getWordRow i + 3 : ℕ) ∈ ops)
    (hs : ∀ op ∈ (subregion1Word reg val i : Wr F _).2, op ∈ ops) :
    ∃ w : Word, G reg a5 (getWordRow i) = ((w.toNat : ℕ) : F) ∧
      IsWord G (subregion1Word reg val i : Wr F _).1 (ssig0 w) := by
  have hdef : (subregion1Word reg val i : Wr F _).1 = ⟨⟨⟨reg, a1, (getWordRow i + 3 - 1 : ℕ)⟩,
      evLo (r1 val)⟩, ⟨⟨reg, a1, (getWordRow i + 3 + 1 : ℕ)⟩, evHi (r1 val)⟩⟩ := rfl
  rw [hdef]
  have c1 := h.sat.equal ⟨reg, a5, (getWordRow i + 3 + 1 : ℕ)⟩ ⟨reg, a3, (getWordRow i + 1 : ℕ)⟩
    (hs _ (by simp [subregion1Word, decomposeSubregion1Word, lowerSigma0, withLookup, assignBits,
      ABits.copy, bind, pure]))
  have c2 := h.sat.equal ⟨reg, a6, (getWordRow i + 3 : ℕ)⟩ ⟨reg, a4, (getWordRow i + 1 : ℕ)⟩
    (hs _ (by simp [subregion1Word, decomposeSubregion1Word, lowerSigma0, withLookup, assignBits,
      ABits.copy, bind, pure]))
  have c3 := h.sat.equal ⟨reg, a4, (getWordRow i + 3 : ℕ)⟩ ⟨reg, a2, (getWordRow i + 1 : ℕ)⟩
    (hs _ (by simp [subregion1Word, decomposeSubregion1Word, lowerSigma0, withLookup, assignBits,
      ABits.copy, bind, pure]))
  have c4 := h.sat.equal ⟨reg, a5, (getWordRow i + 3 : ℕ)⟩ ⟨reg, a2, (getWordRow i : ℕ)⟩
    (hs _ (by simp [subregion1Word, decomposeSubregion1Word, lowerSigma0, withLookup, assignBits,
      ABits.copy, bind, pure]))
  have c5 := h.sat.equal ⟨reg, a3, (getWordRow i + 3 : ℕ)⟩ ⟨reg, a2, (getWordRow i + 3 + 2 : ℕ)⟩
    (hs _ (by simp [subregion1Word, decomposeSubregion1Word, lowerSigma0, withLookup, assignBits,
      ABits.copy, assignSigmaOutputs, assignSpreadOutputs, bind, pure]))
  have g1 := h.gate 2 rfl h1
  have g2 := h.gate 5 rfl h2
  generalize getWordRow i = R at *
  simp only [Grid.at] at c1 c2 c3 c4 c5
  simp only [Grid.query] at g1 g2
  push_cast at c1 c2 c3 c4 c5 g1 g2
  rw [show ((R : ℤ) + 3 + -1) = R + 2 by ring, add_zero, c1, c2, c3, c4, c5] at g2
  rw [add_zero] at g1
  obtain ⟨w, w32, e, q0, q2⟩ := ls0_sound hF (h.mem _) (h.mem _) (h.mem _) (h.mem _) (h.mem _)
    (h.mem _) g1 g2
  obtain ⟨w, rfl⟩ := exists_word w32
  refine ⟨w, e, ?_⟩
  unfold IsWord
  simp only [Grid.at]
  rw [show ((R + 3 - 1 : ℕ) : ℤ) = R + 2 by push_cast [show 1 ≤ R + 3 by omega]; ring,
    show ((R + 3 + 1 : ℕ) : ℤ) = R + 3 + 1 by push_cast; ring]
  exact word_eq q0 q2 (rs0_spec w) rfl

/-- `σ_1` on `W_49, …, W_61`. -/
theorem subregion3Word_sound (hF : Big F) (h : Ok G ops reg) {i val : ℕ}
    (h1 : Op.enable .dec3 reg (getWordRow i : ℕ) ∈ ops)
    (h2 : Op.enable .ls1 reg (getWordRow i + 3 : ℕ) ∈ ops)
    (hs : ∀ op ∈ (decomposeSubregion3Word reg val i : Wr F _).2, op ∈ ops)
    (hs' : ∀ op ∈ (lowerSigma1 reg (decomposeSubregion3Word reg val i : Wr F _).1 : Wr F _).2,
      op ∈ ops) :
    ∃ w : Word, G reg a5 (getWordRow i) = ((w.toNat : ℕ) : F) ∧
      IsWord G (lowerSigma1 reg (decomposeSubregion3Word reg val i : Wr F _).1 : Wr F _).1
        (ssig1 w) := by
  have hdef : (lowerSigma1 reg (decomposeSubregion3Word reg val i : Wr F _).1 : Wr F _).1 =
      ⟨⟨⟨reg, a1, (getWordRow i + 3 - 1 : ℕ)⟩,
      evLo (r3 val)⟩, ⟨⟨reg, a1, (getWordRow i + 3 + 1 : ℕ)⟩, evHi (r3 val)⟩⟩ := rfl
  rw [hdef]
  have c1 := h.sat.equal ⟨reg, a4, (getWordRow i + 3 : ℕ)⟩ ⟨reg, a2, (getWordRow i + 1 : ℕ)⟩
    (hs' _ (by simp [decomposeSubregion3Word, lowerSigma1, withLookup, withoutLookup, assignBits,
      ABits.copy, bind, pure]))
  have c2 := h.sat.equal ⟨reg, a6, (getWordRow i + 3 : ℕ)⟩ ⟨reg, a4, (getWordRow i + 1 : ℕ)⟩
    (hs' _ (by simp [decomposeSubregion3Word, lowerSigma1, withLookup, withoutLookup, assignBits,
      ABits.copy, bind, pure]))
  have c3 := h.sat.equal ⟨reg, a3, (getWordRow i + 3 + 1 : ℕ)⟩ ⟨reg, a3, (getWordRow i + 1 : ℕ)⟩
    (hs' _ (by simp [decomposeSubregion3Word, lowerSigma1, withLookup, withoutLookup, assignBits,
      ABits.copy, bind, pure]))
  have c4 := h.sat.equal ⟨reg, a5, (getWordRow i + 3 : ℕ)⟩ ⟨reg, a2, (getWordRow i : ℕ)⟩
    (hs' _ (by simp [decomposeSubregion3Word, lowerSigma1, withLookup, withoutLookup, assignBits,
      ABits.copy, bind, pure]))
  have c5 := h.sat.equal ⟨reg, a3, (getWordRow i + 3 : ℕ)⟩ ⟨reg, a2, (getWordRow i + 3 + 2 : ℕ)⟩
    (hs' _ (by simp [decomposeSubregion3Word, lowerSigma1, withLookup, withoutLookup, assignBits,
      ABits.copy, assignSigmaOutputs, assignSpreadOutputs, bind, pure]))
  have g1 := h.gate 4 rfl h1
  have g2 := h.gate 8 rfl h2
  generalize getWordRow i = R at *
  simp only [Grid.at] at c1 c2 c3 c4 c5
  simp only [Grid.query] at g1 g2
  push_cast at c1 c2 c3 c4 c5 g1 g2
  rw [show ((R : ℤ) + 3 + -1) = R + 2 by ring, add_zero, c1, c2, c3, c4, c5] at g2
  rw [add_zero] at g1
  obtain ⟨w, w32, e, q0, q2⟩ := ls1_sound hF (h.mem _) (h.mem _) (h.mem _) (h.mem _) (h.mem _)
    (h.mem _) g1 g2
  obtain ⟨w, rfl⟩ := exists_word w32
  refine ⟨w, e, ?_⟩
  unfold IsWord
  simp only [Grid.at]
  rw [show ((R + 3 - 1 : ℕ) : ℤ) = R + 2 by push_cast [show 1 ≤ R + 3 by omega]; ring,
    show ((R + 3 + 1 : ℕ) : ℤ) = R + 3 + 1 by push_cast; ring]
  exact word_eq q0 q2 (rs1_spec w) rfl

/-- `σ_0` and `σ_1` on `W_14, …, W_48`.  The hypotheses that the pieces `e` and `f` are bits are
not enforced by the constraints: see `Verif.Sha256.lsv2_unsound`. -/
theorem subregion2Word_sound (hF : Big F) (h : Ok G ops reg) {i val : ℕ} (hi : 14 ≤ i)
    (hi' : i ≤ 48)
    (h1 : Op.enable .dec2 reg (getWordRow i : ℕ) ∈ ops)
    (h2 : Op.enable .ls0v2 reg (getWordRow i + 3 : ℕ) ∈ ops)
    (h3 : Op.enable .ls1v2 reg (getWordRow i + 4 + 3 : ℕ) ∈ ops)
    (he : G.at (decomposeWord reg val i : Wr F _).1.e.cell = 0 ∨
      G.at (decomposeWord reg val i : Wr F _).1.e.cell = 1)
    (hf : G.at (decomposeWord reg val i : Wr F _).1.f.cell = 0 ∨
      G.at (decomposeWord reg val i : Wr F _).1.f.cell = 1)
    (hs' : ∀ op ∈ (lowerSigma0V2 reg (decomposeWord reg val i : Wr F _).1 : Wr F _).2, op ∈ ops)
    (hs'' : ∀ op ∈ (lowerSigma1V2 reg (decomposeWord reg val i : Wr F _).1 : Wr F _).2, op ∈ ops) :
    ∃ w : Word, G reg a5 (getWordRow i) = ((w.toNat : ℕ) : F) ∧
      IsWord G (lowerSigma0V2 reg (decomposeWord reg val i : Wr F _).1 : Wr F _).1 (ssig0 w) ∧
      IsWord G (lowerSigma1V2 reg (decomposeWord reg val i : Wr F _).1 : Wr F _).1 (ssig1 w) := by
  have hdef : (lowerSigma0V2 reg (decomposeWord reg val i : Wr F _).1 : Wr F _).1 =
      ⟨⟨⟨reg, a1, (getWordRow i + 3 - 1 : ℕ)⟩,
      evLo (r20 val)⟩, ⟨⟨reg, a1, (getWordRow i + 3 + 1 : ℕ)⟩, evHi (r20 val)⟩⟩ := rfl
  have hdef' : (lowerSigma1V2 reg (decomposeWord reg val i : Wr F _).1 : Wr F _).1 =
      ⟨⟨⟨reg, a1, (getWordRow i + 4 + 3 - 1 : ℕ)⟩,
      evLo (r21 val)⟩, ⟨⟨reg, a1, (getWordRow i + 4 + 3 + 1 : ℕ)⟩, evHi (r21 val)⟩⟩ := rfl
  rw [hdef, hdef']
  have hw : (decomposeWord reg val i : Wr F _).1 =
      ⟨i, ⟨⟨reg, a3, (getWordRow i - 1 : ℕ)⟩, slice val 0 3⟩,
        ⟨⟨reg, a1, (getWordRow i + 1 : ℕ)⟩, slice val 3 7⟩,
        ⟨⟨reg, a4, (getWordRow i - 1 : ℕ)⟩, slice val 7 10⟩,
        ⟨⟨reg, a3, (getWordRow i + 1 : ℕ)⟩, slice val 17 18⟩,
        ⟨⟨reg, a4, (getWordRow i + 1 : ℕ)⟩, slice val 18 19⟩,
        ⟨⟨reg, a2, (getWordRow i : ℕ)⟩, spreadBits 7 (slice val 10 17)⟩,
        ⟨⟨reg, a2, (getWordRow i - 1 : ℕ)⟩, spreadBits 13 (slice val 19 32)⟩⟩ := rfl
  rw [hw] at he hf hs' hs''
  have hc : ∀ row, (∀ op ∈ (assignLowerSigmaV2Pieces reg row
      (decomposeWord reg val i : Wr F _).1 : Wr F _).2, op ∈ ops) →
      G reg a3 (row + 1 : ℕ) = G reg a3 (getWordRow i - 1 : ℕ) ∧
      G reg a6 row = G reg a1 (getWordRow i + 1 : ℕ) ∧
      G reg a5 (row + 1 : ℕ) = G reg a4 (getWordRow i - 1 : ℕ) ∧
      G reg a4 row = G reg a2 (getWordRow i : ℕ) ∧
      G reg a7 row = G reg a3 (getWordRow i + 1 : ℕ) ∧
      G reg a7 (row + 1 : ℕ) = G reg a4 (getWordRow i + 1 : ℕ) ∧
      G reg a5 row = G reg a2 (getWordRow i - 1 : ℕ) := by
    intro row hp
    rw [hw] at hp
    refine ⟨h.sat.equal ⟨reg, a3, (row + 1 : ℕ)⟩ ⟨reg, a3, (getWordRow i - 1 : ℕ)⟩ (hp _ ?_),
      h.sat.equal ⟨reg, a6, row⟩ ⟨reg, a1, (getWordRow i + 1 : ℕ)⟩ (hp _ ?_),
      h.sat.equal ⟨reg, a5, (row + 1 : ℕ)⟩ ⟨reg, a4, (getWordRow i - 1 : ℕ)⟩ (hp _ ?_),
      h.sat.equal ⟨reg, a4, row⟩ ⟨reg, a2, (getWordRow i : ℕ)⟩ (hp _ ?_),
      h.sat.equal ⟨reg, a7, row⟩ ⟨reg, a3, (getWordRow i + 1 : ℕ)⟩ (hp _ ?_),
      h.sat.equal ⟨reg, a7, (row + 1 : ℕ)⟩ ⟨reg, a4, (getWordRow i + 1 : ℕ)⟩ (hp _ ?_),
      h.sat.equal ⟨reg, a5, row⟩ ⟨reg, a2, (getWordRow i - 1 : ℕ)⟩ (hp _ ?_)⟩ <;>
    simp [assignLowerSigmaV2Pieces, assignBits, ABits.copy, bind, pure]
  obtain ⟨c1, c2, c3, c4, c5, c6, c7⟩ := hc (getWordRow i + 3) (fun op hop => hs' op (by
    rw [hw] at hop
    simp only [lowerSigma0V2, bind, List.mem_append]
    exact .inl hop))
  obtain ⟨d1, d2, d3, d4, d5, d6, d7⟩ := hc (getWordRow i + 4 + 3) (fun op hop => hs'' op (by
    rw [hw] at hop
    simp only [lowerSigma1V2, bind, List.mem_append]
    exact .inl hop))
  have c8 := h.sat.equal ⟨reg, a3, (getWordRow i + 3 : ℕ)⟩ ⟨reg, a2, (getWordRow i + 3 + 2 : ℕ)⟩
    (hs' _ (by simp [lowerSigma0V2, withLookup, assignBits,
      ABits.copy, assignSigmaOutputs, assignSpreadOutputs, bind, pure]))
  have d8 := h.sat.equal ⟨reg, a3, (getWordRow i + 4 + 3 : ℕ)⟩
    ⟨reg, a2, (getWordRow i + 4 + 3 + 2 : ℕ)⟩
    (hs'' _ (by simp [lowerSigma1V2, withLookup, assignBits,
      ABits.copy, assignSigmaOutputs, assignSpreadOutputs, bind, pure]))
  have g1 := h.gate 3 rfl h1
  have g2 := h.gate 6 rfl h2
  have g3 := h.gate 7 rfl h3
  obtain ⟨R, hR⟩ : ∃ R, getWordRow i = R + 1 := by
    refine ⟨getWordRow i - 1, ?_⟩
    have : 1 ≤ getWordRow i := by unfold getWordRow; split_ifs <;> omega
    omega
  rw [hR] at he hf c1 c2 c3 c4 c5 c6 c7 c8 d1 d2 d3 d4 d5 d6 d7 d8 g1 g2 g3 ⊢
  simp only [Grid.at, Nat.add_sub_cancel] at he hf c1 c2 c3 c4 c5 c6 c7 c8 d1 d2 d3 d4 d5 d6 d7 d8
  simp only [Grid.query] at g1 g2 g3
  push_cast at he hf c1 c2 c3 c4 c5 c6 c7 c8 d1 d2 d3 d4 d5 d6 d7 d8 g1 g2 g3
  rw [show ((R : ℤ) + 1 + 3 + -1) = R + 3 by ring, add_zero, c1, c2, c3, c4, c5, c6, c7, c8] at g2
  rw [show ((R : ℤ) + 1 + 4 + 3 + -1) = R + 7 by ring, add_zero, d1, d2, d3, d4, d5, d6, d7, d8]
    at g3
  rw [show ((R : ℤ) + 1 + -1) = R by ring, add_zero] at g1
  obtain ⟨w, w32, e, ⟨q0, q2⟩, q0', q2'⟩ := lsv2_sound hF (h.mem _) (h.mem _) (h.mem _) (h.mem _)
    (h.mem _) (h.mem _) (h.mem _) (h.mem _) (h.mem _) (h.mem _) (h.mem _) he hf g1 g2 g3
  obtain ⟨w, rfl⟩ := exists_word w32
  refine ⟨w, by push_cast; exact e, ?_, ?_⟩
  · unfold IsWord
    simp only [Grid.at]
    rw [show ((R + 1 + 3 - 1 : ℕ) : ℤ) = R + 3 by push_cast [show 1 ≤ R + 1 + 3 by omega]; ring,
      show ((R + 1 + 3 + 1 : ℕ) : ℤ) = R + 1 + 3 + 1 by push_cast; ring]
    exact word_eq q0 q2 (rs0_spec w) rfl
  · unfold IsWord
    simp only [Grid.at]
    rw [show ((R + 1 + 4 + 3 - 1 : ℕ) : ℤ) = R + 7 by
        push_cast [show 1 ≤ R + 1 + 4 + 3 by omega]; ring,
      show ((R + 1 + 4 + 3 + 1 : ℕ) : ℤ) = R + 1 + 4 + 3 + 1 by push_cast; ring]
    exact word_eq q0' q2' (rs1_spec w) rfl

end Verif.Sha256
