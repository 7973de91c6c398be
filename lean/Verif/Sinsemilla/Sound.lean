import Mathlib.Data.Nat.Digits.Defs
import Mathlib.Algebra.CharP.Two
import Verif.Sinsemilla.Program

/-!
# Soundness of the Sinsemilla chip (C57)
-/

namespace Verif.Sinsemilla

open Verif.Region Verif.Ecc Verif.Utilities Verif.RunningSum Verif.Mul

variable {C S : Type}

section

variable {F : Type} [Field F] (K : ℕ) (gens : ℕ → F × F) (cfg : Config C S)

theorem mem_table (hK : 5 ≤ K) (l : List F) : l ∈ (lookup K gens cfg).table ↔
    ∃ w : ℕ, w < 2 ^ K ∧ l = [(w : F), (gens w).1, (gens w).2] := by
  have h4 : 2 ^ 4 ≤ 2 ^ K := Nat.pow_le_pow_right (by norm_num) (by omega)
  have h5 : 2 ^ 5 ≤ 2 ^ K := Nat.pow_le_pow_right (by norm_num) (by omega)
  unfold lookup
  dsimp only
  cases cfg.range.variant with
  | base =>
    simp only [List.mem_map, List.mem_range, eq_comm]
  | tagged q4 q5 =>
    simp only [List.mem_append, List.mem_map, List.mem_range]
    constructor
    · rintro ((⟨i, hi, rfl⟩ | ⟨i, hi, rfl⟩) | ⟨i, hi, rfl⟩)
      · exact ⟨i, hi, rfl⟩
      · exact ⟨i, by omega, rfl⟩
      · exact ⟨i, by omega, rfl⟩
    · rintro ⟨i, hi, rfl⟩
      exact .inl (.inl ⟨i, hi, rfl⟩)

/-- The lookup at a row of a hash. -/
theorem lookup_on (hK : 5 ≤ K) {sel : S → F} {q : C → ℤ → F} (h1 : sel cfg.qS1 = 1) :
    (lookup K gens cfg).input sel q ∈ (lookup K gens cfg).table ↔ ∃ w : ℕ, w < 2 ^ K ∧
      q cfg.bits 0 - (q cfg.qS2 0 - qS3 cfg q) * q cfg.bits 1 * ((2 ^ K : ℕ) : F) = (w : F) ∧
      q cfg.da.xP 0 = (gens w).1 ∧
      cfg.da.YA q 0 * 2⁻¹ - q cfg.da.lambda1 0 * (q cfg.da.xA 0 - q cfg.da.xP 0) = (gens w).2 := by
  rw [mem_table K gens cfg hK]
  simp only [lookup, h1, one_mul, sub_self, zero_mul, add_zero, List.cons.injEq, and_true]

/-- ... and elsewhere. -/
theorem lookup_off (hK : 5 ≤ K) {sel : S → F} {q : C → ℤ → F} (h1 : sel cfg.qS1 = 0) :
    (lookup K gens cfg).input sel q ∈ (lookup K gens cfg).table := by
  rw [mem_table K gens cfg hK]
  exact ⟨0, by positivity, by simp [lookup, h1]⟩

end

variable {p : ℕ} [Fact p.Prime] {b : ZMod p}

/-- The equations of a row: the generator of the word `w`, the secant and the next ordinate. -/
structure RowEq (gens : ℕ → ZMod p × ZMod p) (cfg : Config C S) (G : Grid C (ZMod p)) (reg row : ℕ)
    (w : ℕ) (last : Bool) : Prop where
  xp : G reg cfg.da.xP row = (gens w).1
  yp : cfg.da.YA (G.query reg row) 0 * 2⁻¹
    - G reg cfg.da.lambda1 row * (G reg cfg.da.xA row - G reg cfg.da.xP row) = (gens w).2
  secant : G reg cfg.da.lambda2 row ^ 2 - (G reg cfg.da.xA (row + 1 : ℕ)
    + cfg.da.xR (G.query reg row) 0 + G reg cfg.da.xA row) = 0
  y : G reg cfg.da.lambda2 row * 4 * (G reg cfg.da.xA row - G reg cfg.da.xA (row + 1 : ℕ))
    - (cfg.da.YA (G.query reg row) 0 * 2 +
      if last then 4 * G reg cfg.da.lambda1 (row + 1 : ℕ)
      else 2 * cfg.da.YA (G.query reg (row + 1 : ℕ)) 0) = 0

theorem YA_shift (d : DoubleAndAdd C) (G : Grid C (ZMod p)) (reg : ℕ) (row : ℕ) :
    d.YA (G.query reg row) 1 = d.YA (G.query reg (row + 1 : ℕ)) 0 := by
  unfold DoubleAndAdd.YA DoubleAndAdd.xR Grid.query
  push_cast
  simp only [add_zero]

/-- Reading the constraints of a row. -/
theorem row_read {K : ℕ} (hK : 5 ≤ K) {gens : ℕ → ZMod p × ZMod p} {cfg : Config C S}
    {G : Grid C (ZMod p)} {tot : List (Op C S (ZMod p))} {reg row : ℕ}
    (hsat : Sat (gates cfg) G tot) (hl : SatLookup (lookup K gens cfg) G tot reg)
    (hon : .enable cfg.qS1 reg row ∈ tot) {v : ZMod p} (hfix : .fixed ⟨reg, cfg.qS2, row⟩ v ∈ tot)
    (hv : v = 0 ∨ v = 1 ∨ v = 2) :
    ∃ w : ℕ, w < 2 ^ K ∧ G reg cfg.bits row
      = (w : ZMod p) + (if v = 1 then ((2 ^ K : ℕ) : ZMod p) * G reg cfg.bits (row + 1 : ℕ) else 0) ∧
      ∀ last, (last = true → v = 2) → (last = false → v ≠ 2) → RowEq gens cfg G reg row w last := by
  have hq : G reg cfg.qS2 row = v := hsat.fixed _ _ hfix
  have hg := hsat.gates (cfg.qS1, _) (List.mem_cons_of_mem _ (List.mem_singleton.2 rfl)) reg row hon
  simp only [List.mem_cons, List.not_mem_nil, or_false, forall_eq_or_imp, forall_eq] at hg
  obtain ⟨g1, g2⟩ := hg
  have h1 := (lookup_on K gens cfg hK (LookupRange.selectors_on hon)).1 (hl row)
  obtain ⟨w, hw, e1, e2, e3⟩ := h1
  have hq3 : qS3 cfg (G.query reg row) = v * (v - 1) := by
    simp only [qS3, Grid.query, add_zero, hq]
  rw [hq3, YA_shift] at g2
  rw [hq3] at e1
  have c1 : ((row : ℤ) + 1) = ((row + 1 : ℕ) : ℤ) := by push_cast; ring
  simp only [Grid.query, add_zero, hq, c1] at e1 e2 e3 g1 g2
  refine ⟨w, hw, ?_, fun last hl1 hl2 => ⟨e2, e3, g1, ?_⟩⟩
  · rcases hv with rfl | rfl | rfl
    · by_cases h01 : (0 : ZMod p) = 1
      · exact absurd h01 (by simp)
      · rw [if_neg h01]; linear_combination e1
    · rw [if_pos rfl]; linear_combination e1
    · by_cases h01 : (2 : ZMod p) = 1
      · have h00 : (1 : ZMod p) = 0 := by linear_combination h01
        exact absurd h00 one_ne_zero
      · rw [if_neg h01]; linear_combination e1
  · cases last with
    | true =>
      rw [hl1 rfl] at g2
      simp only [if_true]
      linear_combination g2
    | false =>
      have hv2 : v * (v - 1) = 0 := by
        rcases hv with h | h | h
        · rw [h, zero_mul]
        · rw [h, sub_self, mul_zero]
        · exact absurd h (hl2 rfl)
      rw [hv2] at g2
      simp only [Bool.false_eq_true, if_false]
      linear_combination g2

/-- A piece: its words, their sums in the cells of the running sum, and the rows. -/
theorem piece_sound {reprBits K : ℕ} (hK : 5 ≤ K) (hp : p ≠ 2) {gens : ℕ → ZMod p × ZMod p} {cfg : Config C S}
    {reg offset : ℕ} {piece : Piece C (ZMod p)} (hN : piece.numWords ≠ 0) {s : ZMod p × ZMod p}
    {final : Bool} {G : Grid C (ZMod p)} {tot : List (Op C S (ZMod p))}
    (hsub : ∀ op ∈ pieceOps reprBits K gens cfg reg offset piece s final, op ∈ tot)
    (hsat : Sat (gates cfg) G tot) (hl : SatLookup (lookup K gens cfg) G tot reg) :
    ∃ ws : List ℕ, ws.length = piece.numWords ∧ (∀ w ∈ ws, w < 2 ^ K) ∧
      G.at piece.cell.cell = G reg cfg.bits offset ∧
      (∀ j < piece.numWords, G reg cfg.bits (offset + j : ℕ)
        = ((Nat.ofDigits (2 ^ K) (ws.drop j) : ℕ) : ZMod p)) ∧
      ∀ j (hj : j < ws.length), RowEq gens cfg G reg (offset + j) ws[j]
        (final && decide (j + 1 = piece.numWords)) := by
  have hp2 : (2 : ZMod p) ≠ 0 := by
    have := LookupRange.two_pow_ne hp 1; exact_mod_cast this
  have h21 : (2 : ZMod p) ≠ 1 := fun h => one_ne_zero (α := ZMod p) (by linear_combination h)
  -- every row
  have hrow : ∀ j < piece.numWords, ∃ w : ℕ, w < 2 ^ K ∧ G reg cfg.bits (offset + j : ℕ)
      = (w : ZMod p) + (if j + 1 < piece.numWords then
          ((2 ^ K : ℕ) : ZMod p) * G reg cfg.bits (offset + (j + 1) : ℕ) else 0) ∧
      RowEq gens cfg G reg (offset + j) w (final && decide (j + 1 = piece.numWords)) := by
    intro j hj
    have hon : (.enable cfg.qS1 reg ((offset + j : ℕ) : ℤ) : Op C S (ZMod p)) ∈ tot := hsub _ (by
      unfold pieceOps
      simp only [List.mem_append, List.mem_map, List.mem_range]
      exact .inl (.inl (.inl (.inl ⟨j, hj, rfl⟩))))
    by_cases hj1 : j + 1 < piece.numWords
    · have hfix : (.fixed ⟨reg, cfg.qS2, ((offset + j : ℕ) : ℤ)⟩ 1 : Op C S (ZMod p)) ∈ tot :=
        hsub _ (by
          unfold pieceOps
          simp only [List.mem_append, List.mem_map, List.mem_range]
          exact .inl (.inl (.inl (.inr ⟨j, by omega, rfl⟩))))
      obtain ⟨w, hw, e, hr⟩ := row_read hK hsat hl hon hfix (.inr (.inl rfl))
      refine ⟨w, hw, ?_, hr _ ?_ ?_⟩
      · rw [if_pos hj1]; simpa only [if_true, add_assoc] using e
      · intro h
        simp only [Bool.and_eq_true, decide_eq_true_eq] at h
        omega
      · exact fun _ => h21.symm
    · have hje : offset + j = offset + piece.numWords - 1 := by omega
      have hfix : (.fixed ⟨reg, cfg.qS2, ((offset + j : ℕ) : ℤ)⟩ (if final then 2 else 0) :
          Op C S (ZMod p)) ∈ tot := hsub _ (by
          unfold pieceOps
          rw [hje]
          simp only [List.mem_append, List.mem_cons, true_or, or_true])
      obtain ⟨w, hw, e, hr⟩ := row_read hK hsat hl hon hfix (by cases final <;> simp)
      refine ⟨w, hw, ?_, hr _ ?_ ?_⟩
      · rw [if_neg hj1]
        have : (if final = true then (2 : ZMod p) else 0) ≠ 1 := by
          cases final
          · simp
          · simpa using h21
        rwa [if_neg this] at e
      · intro h
        simp only [Bool.and_eq_true] at h
        rw [if_pos h.1]
      · intro h
        have : final = false := by
          have hd : decide (j + 1 = piece.numWords) = true := by simp; omega
          rw [hd, Bool.and_true] at h
          exact h
        rw [this]
        simpa using hp2.symm
  choose! f hf using hrow
  refine ⟨(List.range piece.numWords).map f, by simp, ?_, ?_, ?_, ?_⟩
  · intro w hw
    obtain ⟨j, hj, rfl⟩ := List.mem_map.1 hw
    exact (hf j (List.mem_range.1 hj)).1
  · exact (hsat.equal ⟨reg, cfg.bits, offset⟩ piece.cell.cell (hsub _ (by
      unfold pieceOps
      simp only [List.mem_append, List.mem_cons, true_or, or_true]))).symm
  · -- backwards
    have key : ∀ m j, j + m + 1 = piece.numWords → G reg cfg.bits (offset + j : ℕ)
        = ((Nat.ofDigits (2 ^ K) (((List.range piece.numWords).map f).drop j) : ℕ) : ZMod p) := by
      intro m
      induction m with
      | zero =>
        intro j hj
        have hlt : j < ((List.range piece.numWords).map f).length := by simp; omega
        rw [(hf j (by omega)).2.1, if_neg (by omega), List.drop_eq_getElem_cons hlt,
          List.drop_of_length_le (by simp; omega)]
        simp
      | succ m ih =>
        intro j hj
        have hlt : j < ((List.range piece.numWords).map f).length := by simp; omega
        rw [(hf j (by omega)).2.1, if_pos (by omega), List.drop_eq_getElem_cons hlt,
          ih (j + 1) (by omega), Nat.ofDigits_cons]
        simp
    exact fun j hj => key (piece.numWords - 1 - j) j (by omega)
  · intro j hj
    simp only [List.getElem_map, List.getElem_range]
    exact (hf j (by simpa using hj)).2.2

/-- A piece is assigned the number with the given words, and its running sum the numbers with the
last words. -/
structure Decomposed (K : ℕ) (G : Grid C (ZMod p)) (piece : Piece C (ZMod p))
    (zs : List (ACell C (ZMod p))) (ws : List ℕ) : Prop where
  length : ws.length = piece.numWords
  lt : ∀ w ∈ ws, w < 2 ^ K
  value : G.at piece.cell.cell = ((Nat.ofDigits (2 ^ K) ws : ℕ) : ZMod p)
  zsLength : zs.length = piece.numWords
  zs : ∀ j (h : j < zs.length), G.at zs[j].cell
    = ((Nat.ofDigits (2 ^ K) (ws.drop j) : ℕ) : ZMod p)

theorem pieceZs_length {reprBits K : ℕ} {cfg : Config C S} {reg offset : ℕ}
    {piece : Piece C (ZMod p)} (hok : PieceOk reprBits K piece) :
    (pieceZs reprBits K cfg reg offset piece).length = piece.numWords := by
  unfold pieceZs
  rw [List.length_cons, sumCells_length, List.length_map, List.length_dropLast, hok.2.2]
  have := hok.1
  omega

theorem pieceZs_cell {reprBits K : ℕ} {cfg : Config C S} {reg offset : ℕ}
    {piece : Piece C (ZMod p)} (hok : PieceOk reprBits K piece) (j : ℕ)
    (h : j < (pieceZs reprBits K cfg reg offset piece).length) :
    (pieceZs reprBits K cfg reg offset piece)[j].cell = ⟨reg, cfg.bits, (offset + j : ℕ)⟩ := by
  refine zs_cell (z₀ := ⟨⟨reg, cfg.bits, offset⟩, piece.cell.value⟩) rfl _ j ?_
  rw [pieceZs_length hok] at h
  rw [List.length_map, List.length_dropLast, hok.2.2]
  omega

/-- All pieces. -/
theorem pieces_sound {reprBits K : ℕ} (hK : 5 ≤ K) (hp : p ≠ 2) {gens : ℕ → ZMod p × ZMod p}
    {cfg : Config C S} {reg offset : ℕ} {message : List (Piece C (ZMod p))}
    (hok : ∀ P ∈ message, PieceOk reprBits K P) {s : ZMod p × ZMod p} {G : Grid C (ZMod p)}
    {tot : List (Op C S (ZMod p))}
    (hsub : ∀ op ∈ piecesOps reprBits K gens cfg reg offset message s, op ∈ tot)
    (hsat : Sat (gates cfg) G tot) (hl : SatLookup (lookup K gens cfg) G tot reg) :
    ∃ wss : List (List ℕ),
      wss.length = message.length ∧
      (∀ k (h1 : k < message.length) (h2 : k < wss.length)
        (h3 : k < (piecesZs reprBits K cfg reg offset message).length),
        Decomposed K G message[k] (piecesZs reprBits K cfg reg offset message)[k] wss[k]) ∧
      wss.flatten.length = rowsOf message ∧
      ∀ i (h : i < wss.flatten.length), RowEq gens cfg G reg (offset + i) wss.flatten[i]
        (decide (i + 1 = rowsOf message)) := by
  induction message generalizing offset s with
  | nil => exact ⟨[], rfl, by simp, rfl, by simp⟩
  | cons P rest ih =>
    obtain ⟨ws, h1, h2, h3, h4, h5⟩ := piece_sound hK hp (hok P (by simp)).1
      (fun op h => hsub op (List.mem_append_left _ h)) hsat hl
    obtain ⟨wss, g1, g2, g3, g4⟩ := ih (fun Q hQ => hok Q (by simp [hQ]))
      (fun op h => hsub op (List.mem_append_right _ h))
    have hrows : rowsOf (P :: rest) = P.numWords + rowsOf rest := by simp [rowsOf]
    have hN := (hok P (by simp)).1
    refine ⟨ws :: wss, by simp [g1], ?_, ?_, ?_⟩
    · intro k k1 k2 k3
      cases k with
      | zero =>
        have hzl := pieceZs_length (cfg := cfg) (reg := reg) (offset := offset) (hok P (by simp))
        refine ⟨h1, h2, ?_, hzl, fun j hj => ?_⟩
        · have h40 := h4 0 (by omega)
          rw [add_zero, List.drop_zero] at h40
          exact h3.trans h40
        · change j < (pieceZs reprBits K cfg reg offset P).length at hj
          have := pieceZs_cell (cfg := cfg) (reg := reg) (offset := offset) (hok P (by simp)) j hj
          change G.at ((pieceZs reprBits K cfg reg offset P)[j].cell) = _
          rw [this]
          exact h4 j (by omega)
      | succ k =>
        exact g2 k (by simpa using k1) (by simpa using k2) (by simpa [piecesZs] using k3)
    · rw [List.flatten_cons, List.length_append, g3, h1, hrows]
    · intro i hi
      simp only [List.flatten_cons] at hi ⊢
      by_cases hlt : i < ws.length
      · rw [List.getElem_append_left hlt]
        have := h5 i hlt
        convert this using 1
        cases rest with
        | nil => simp [rowsOf]
        | cons P' r' =>
          have hN' := (hok P' (by simp)).1
          simp only [List.isEmpty_cons, Bool.false_and, decide_eq_false_iff_not]
          rw [hrows]
          simp only [rowsOf, List.map_cons, List.sum_cons]
          omega
      · rw [List.getElem_append_right (by omega)]
        have := g4 (i - ws.length) (by rw [List.length_append] at hi; omega)
        rw [show offset + P.numWords + (i - ws.length) = offset + i by omega] at this
        convert this using 1
        rw [hrows]
        congr 1
        apply propext
        omega

/-- What the hash of a message from `Q` guarantees: the pieces are made of words, and the output is
the hash of these words from `Q`, unless the accumulator meets the next generator. -/
def Hashes (K : ℕ) (gen : ℕ → Pt b) (G : Grid C (ZMod p)) (Q : Pt b)
    (message : List (Piece C (ZMod p))) (out : EccPoint C (ZMod p))
    (zs : List (List (ACell C (ZMod p)))) : Prop :=
  ∃ wss : List (List ℕ), wss.length = message.length ∧ zs.length = message.length ∧
    (∀ k (h1 : k < message.length) (h2 : k < wss.length) (h3 : k < zs.length),
      Decomposed K G message[k] zs[k] wss[k]) ∧
    (Collides gen Q wss.flatten ∨
      ∃ R, specHash gen Q wss.flatten = some R ∧ Holds G out R)

theorem piecesZs_length {reprBits K : ℕ} {cfg : Config C S} {reg offset : ℕ}
    {message : List (Piece C (ZMod p))} :
    (piecesZs reprBits K cfg reg offset message).length = message.length := by
  induction message generalizing offset with
  | nil => rfl
  | cons P rest ih => simp [piecesZs, ih]

/-- The hash after the initialization. -/
theorem hashFrom_sound {reprBits K : ℕ} (hg : Good b) (hK : 5 ≤ K) {gen : ℕ → Pt b}
    (hgen0 : ∀ w < 2 ^ K, gen w ≠ 0)
    {cfg : Config C S} {reg offset : ℕ} {message : List (Piece C (ZMod p))} (hne : message ≠ [])
    (hok : ∀ P ∈ message, PieceOk reprBits K P) {s : ZMod p × ZMod p} {G : Grid C (ZMod p)}
    {tot : List (Op C S (ZMod p))}
    (hsub : ∀ op ∈ hashOps reprBits K (fun w => enc (gen w)) cfg reg offset message s, op ∈ tot)
    (hsat : Sat (gates cfg) G tot)
    (hl : SatLookup (lookup K (fun w => enc (gen w)) cfg) G tot reg)
    {Q : Pt b} (hQ0 : Q ≠ 0) {yq : ZMod p} (hQ : enc Q = (G reg cfg.da.xA offset, yq))
    (hinit : cfg.da.YA (G.query reg offset) 0 = 2 * yq) :
    Hashes K gen G Q message (hashOut reprBits K (fun w => enc (gen w)) cfg reg offset message s)
      (piecesZs reprBits K cfg reg offset message) := by
  have hp : p ≠ 2 := by
    rintro rfl
    exact hg.two (CharTwo.two_eq_zero)
  obtain ⟨wss, h1, h2, h3, h4⟩ := pieces_sound hK hp hok
    (fun op h => hsub op (List.mem_append_left _ h)) hsat hl
  refine ⟨wss, h1, piecesZs_length, h2, ?_⟩
  set ws := wss.flatten with hws
  set n := rowsOf message with hn
  have hn0 : 0 < n := by
    obtain ⟨P, hP⟩ := List.exists_mem_of_ne_nil _ hne
    have h' := (hok P hP).1
    have : P.numWords ≤ (message.map Piece.numWords).sum :=
      List.single_le_sum (by simp) _ (List.mem_map_of_mem hP)
    rw [hn]; unfold rowsOf; omega
  have hlt : ∀ w ∈ ws, w < 2 ^ K := by
    intro w hw
    obtain ⟨l, hl', hw⟩ := List.mem_flatten.1 hw
    obtain ⟨k, hk, rfl⟩ := List.getElem_of_mem hl'
    exact (h2 k (by omega) hk (by rw [piecesZs_length]; omega)).lt w hw
  let Y : ℕ → ZMod p := fun i => if i < n then cfg.da.YA (G.query reg (offset + i : ℕ)) 0 * 2⁻¹
    else G reg cfg.da.lambda1 (offset + n : ℕ)
  have h22 : (2 : ZMod p) * 2⁻¹ = 1 := mul_inv_cancel₀ hg.two
  have hYlt : ∀ i, i < n → Y i = cfg.da.YA (G.query reg (offset + i : ℕ)) 0 * 2⁻¹ :=
    fun i hi => if_pos hi
  have hYn : Y n = G reg cfg.da.lambda1 (offset + n : ℕ) := if_neg (lt_irrefl n)
  have hYA : ∀ i : ℕ, cfg.da.YA (G.query reg (offset + i : ℕ)) 0
      = (G reg cfg.da.lambda1 (offset + i : ℕ) + G reg cfg.da.lambda2 (offset + i : ℕ))
        * (G reg cfg.da.xA (offset + i : ℕ) - (G reg cfg.da.lambda1 (offset + i : ℕ) ^ 2
          - G reg cfg.da.xA (offset + i : ℕ) - G reg cfg.da.xP (offset + i : ℕ))) := by
    intro i
    simp only [DoubleAndAdd.YA, DoubleAndAdd.xR, Grid.query, add_zero]
  have hXR : ∀ i : ℕ, cfg.da.xR (G.query reg (offset + i : ℕ)) 0
      = (G reg cfg.da.lambda1 (offset + i : ℕ) ^ 2
          - G reg cfg.da.xA (offset + i : ℕ) - G reg cfg.da.xP (offset + i : ℕ)) := by
    intro i
    simp only [DoubleAndAdd.xR, Grid.query, add_zero]
  have res := rows_sound hg (gen := gen) n (X := fun i => G reg cfg.da.xA (offset + i : ℕ)) (Y := Y)
    (L1 := fun i => G reg cfg.da.lambda1 (offset + i : ℕ))
    (L2 := fun i => G reg cfg.da.lambda2 (offset + i : ℕ))
    (XP := fun i => G reg cfg.da.xP (offset + i : ℕ))
    (YP := fun i => Y i - G reg cfg.da.lambda1 (offset + i : ℕ) * (G reg cfg.da.xA (offset + i : ℕ)
      - G reg cfg.da.xP (offset + i : ℕ)))
    hQ0 (ws := ws) ?_ h3 ?_ ?_ (fun _ _ => rfl) ?_ ?_ ?_
  · rcases res with h | ⟨R, hR, hRe⟩
    · exact .inl h
    · refine .inr ⟨R, hR, ?_⟩
      rw [hYn] at hRe
      exact hRe
  · rw [hQ, hYlt 0 hn0]
    simp only [add_zero, hinit]
    congr 1
    linear_combination (-yq) * h22
  · exact fun w hw => hgen0 w (hlt w hw)
  · intro i hi
    have r := h4 i hi
    have hin : i < n := by omega
    rw [hYlt i hin]
    exact Prod.ext r.xp.symm r.yp.symm
  · intro i hi
    rw [hYlt i hi, hYA]
    linear_combination (-((G reg cfg.da.lambda1 (offset + i : ℕ) + G reg cfg.da.lambda2 (offset + i : ℕ))
        * (G reg cfg.da.xA (offset + i : ℕ) - (G reg cfg.da.lambda1 (offset + i : ℕ) ^ 2
          - G reg cfg.da.xA (offset + i : ℕ) - G reg cfg.da.xP (offset + i : ℕ))))) * h22
  · intro i hi
    have r := (h4 i (by omega)).secant
    rw [hXR] at r
    exact r
  · intro i hi
    have r := (h4 i (by omega)).y
    have h4ne : (4 : ZMod p) ≠ 0 := by
      have : (4 : ZMod p) = 2 * 2 := by norm_num
      rw [this]; exact mul_ne_zero hg.two hg.two
    rw [hYlt i hi]
    apply mul_left_cancel₀ h4ne
    by_cases hlast : i + 1 = n
    · rw [hlast, hYn]
      simp only [hlast, decide_true, if_true] at r
      rw [show offset + i + 1 = offset + n by omega] at r
      linear_combination -r + 2 * cfg.da.YA (G.query reg (offset + i : ℕ)) 0 * h22
    · rw [hYlt (i + 1) (by omega)]
      simp only [hlast, decide_false, Bool.false_eq_true, if_false] at r
      rw [show offset + i + 1 = offset + (i + 1) by omega] at r
      linear_combination -r + (2 * cfg.da.YA (G.query reg (offset + (i + 1) : ℕ)) 0
        + 2 * cfg.da.YA (G.query reg (offset + i : ℕ)) 0) * h22

end Verif.Sinsemilla
