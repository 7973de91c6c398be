import Verif.Sinsemilla.Sound

/-!
# Completeness of the Sinsemilla chip (C58)
-/

namespace Verif.Sinsemilla

open Verif.Region Verif.Ecc Verif.Utilities Verif.RunningSum Verif.Mul

variable {C S : Type}

/-- The `n` digits of a number in base `2^K`. -/
def digitsOf (K n x : ℕ) : List ℕ := (List.range n).map fun i => x / (2 ^ K) ^ i % 2 ^ K

theorem digitsOf_value (K n x : ℕ) (h : x < 2 ^ (K * n)) : Nat.ofDigits (2 ^ K) (digitsOf K n x) = x := by
  have key : ∀ n x, Nat.ofDigits (2 ^ K) (digitsOf K n x) = x % (2 ^ K) ^ n := by
    intro n
    induction n with
    | zero => intro x; simp [digitsOf, Nat.mod_one]
    | succ n ih =>
      intro x
      have e : digitsOf K (n + 1) x = (x % 2 ^ K) :: digitsOf K n (x / 2 ^ K) := by
        unfold digitsOf
        rw [List.range_succ_eq_map, List.map_cons, List.map_map, pow_zero, Nat.div_one]
        congr 1
        refine List.map_congr_left fun i _ => ?_
        simp only [Function.comp, Nat.succ_eq_add_one, pow_succ', Nat.div_div_eq_div_mul]
      rw [e, Nat.ofDigits_cons, ih, pow_succ', Nat.mod_mul]
  rw [key, ← pow_mul, Nat.mod_eq_of_lt h]

section

variable {F : Type} [Field F]

/-- Honest running sums of the digits of a number. -/
theorem sumCells_digits (reg : ℕ) (col : C) {B : ℕ} (hB : (B : F) ≠ 0) (m : ℕ) :
    ∀ (row X j : ℕ) (h : j < (sumCells reg col (B : F)⁻¹ row (X : F)
      ((List.range m).map fun i => ((X / B ^ i % B : ℕ) : F))).length),
      ((sumCells reg col (B : F)⁻¹ row (X : F)
        ((List.range m).map fun i => ((X / B ^ i % B : ℕ) : F)))[j]).value
        = ((X / B ^ (j + 1) : ℕ) : F) := by
  induction m with
  | zero => intro row X j h; simp [sumCells] at h
  | succ m ih =>
    intro row X j h
    have hstep : ((X : F) - ((X / B ^ 0 % B : ℕ) : F)) * (B : F)⁻¹ = ((X / B : ℕ) : F) := by
      rw [pow_zero, Nat.div_one, ← div_eq_mul_inv, div_eq_iff hB, sub_eq_iff_eq_add]
      have := Nat.div_add_mod X B
      calc (X : F) = ((B * (X / B) + X % B : ℕ) : F) := by rw [this]
        _ = _ := by push_cast; ring
    have e : (List.range (m + 1)).map (fun i => ((X / B ^ i % B : ℕ) : F))
        = ((X / B ^ 0 % B : ℕ) : F) :: (List.range m).map fun i => ((X / B / B ^ i % B : ℕ) : F) := by
      rw [List.range_succ_eq_map, List.map_cons, List.map_map]
      congr 1
      refine List.map_congr_left fun i _ => ?_
      simp only [Function.comp, Nat.succ_eq_add_one, pow_succ', Nat.div_div_eq_div_mul]
    simp only [e, sumCells, hstep] at h ⊢
    cases j with
    | zero => simp
    | succ j =>
      rw [List.getElem_cons_succ, ih (row + 1) (X / B) j (by simpa using h), pow_succ' B (j + 1),
        Nat.div_div_eq_div_mul]

theorem rowsOps_append (cfg : Config C S) (reg : ℕ) (a b : List (F × F)) (row : ℕ) (s : F × F) :
    rowsOps cfg reg row s (a ++ b)
      = rowsOps cfg reg row s a ++ rowsOps cfg reg (row + a.length) (a.foldl next s) b := by
  induction a generalizing row s with
  | nil => rfl
  | cons g a ih =>
    rw [List.cons_append, rowsOps, ih, rowsOps, List.append_assoc, List.foldl_cons, List.length_cons,
      show row + 1 + a.length = row + (a.length + 1) by omega]

/-- The cells of the rows. -/
theorem rows_honest {cfg : Config C S} {reg row : ℕ} {s : F × F} {gs : List (F × F)} {G : Grid C F}
    (h : ∀ c v, .advice c v ∈ rowsOps cfg reg row s gs → G.at c = v) (i : ℕ) (hi : i < gs.length) :
    G reg cfg.da.xP (row + i : ℕ) = gs[i].1 ∧
    G reg cfg.da.lambda1 (row + i : ℕ)
      = (rowVals gs[i] ((gs.take i).foldl next s).1 ((gs.take i).foldl next s).2).1 ∧
    G reg cfg.da.lambda2 (row + i : ℕ)
      = (rowVals gs[i] ((gs.take i).foldl next s).1 ((gs.take i).foldl next s).2).2.1 ∧
    G reg cfg.da.xA (row + i + 1 : ℕ) = ((gs.take (i + 1)).foldl next s).1 := by
  induction gs generalizing row s i with
  | nil => simp at hi
  | cons g gs ih =>
    cases i with
    | zero =>
      have h1 : ∀ c v, _ → G.at c = v := fun c v hm => h c v (List.mem_append_left _ hm)
      refine ⟨h1 ⟨reg, cfg.da.xP, row⟩ _ (by simp), h1 ⟨reg, cfg.da.lambda1, row⟩ _ (by simp),
        h1 ⟨reg, cfg.da.lambda2, row⟩ _ (by simp),
        h1 ⟨reg, cfg.da.xA, (row + 1 : ℕ)⟩ _ (by simp [next])⟩
    | succ i =>
      have := ih (fun c v hm => h c v (List.mem_append_right _ hm)) i (by simpa using hi)
      simp only [List.getElem_cons_succ, List.take_succ_cons, List.foldl_cons]
      rwa [show row + 1 + i = row + (i + 1) by omega] at this

end

variable {p : ℕ} [Fact p.Prime] {b : ZMod p}

theorem words_eq {reprBits K N : ℕ} (hK : K ≠ 0) (hr : K * N ≤ reprBits) (x : ZMod p) :
    words reprBits K x N = digitsOf K N x.val := by
  have hlen : ((toLeBits reprBits x).take (K * N)).length = K * N := by
    simp [toLeBits]; omega
  unfold words chunksExact digitsOf
  rw [hlen, Nat.mul_div_cancel_left _ (Nat.pos_of_ne_zero hK), List.map_map]
  refine List.map_congr_left fun i hi => ?_
  rw [List.mem_range] at hi
  have hle : i * K + K ≤ K * N := by nlinarith
  have e : (((toLeBits reprBits x).take (K * N)).drop (i * K)).take K
      = ((toLeBits reprBits x).drop (i * K)).take K := by
    rw [List.drop_take, List.take_take, min_eq_left (by omega)]
  rw [Function.comp, e, chunkValue_eq]
  unfold toLeBits
  rw [slice_testBit _ _ _ _ (by omega), ← pow_mul, mul_comm K i]

/-- A piece that fits: as many bits as its words, and no more. -/
def Fits (reprBits K : ℕ) (P : Piece C (ZMod p)) : Prop :=
  P.numWords ≠ 0 ∧ K * P.numWords ≤ reprBits ∧ P.cell.value.val < 2 ^ (K * P.numWords)

/-- The words of a message. -/
def msgWords (K : ℕ) (message : List (Piece C (ZMod p))) : List ℕ :=
  message.flatMap fun P => digitsOf K P.numWords P.cell.value.val

theorem Fits.ok {reprBits K : ℕ} (hK : K ≠ 0) {P : Piece C (ZMod p)} (h : Fits reprBits K P) :
    PieceOk reprBits K P :=
  ⟨h.1, hK, by rw [words_eq hK h.2.1]; simp [digitsOf]⟩

theorem allGens_eq {reprBits K : ℕ} (hK : K ≠ 0) {gens : ℕ → ZMod p × ZMod p}
    {message : List (Piece C (ZMod p))} (h : ∀ P ∈ message, Fits reprBits K P) :
    allGens reprBits K gens message = (msgWords K message).map gens := by
  unfold allGens msgWords
  rw [List.map_flatMap]
  refine List.flatMap_congr fun P hP => ?_
  unfold pieceGens
  rw [words_eq hK (h P hP).2.1]

theorem msgWords_length {K : ℕ} {message : List (Piece C (ZMod p))} :
    (msgWords K message).length = rowsOf message := by
  unfold msgWords rowsOf
  rw [List.length_flatMap]
  simp [digitsOf]

/-- What a row of an honest piece holds. -/
def BitRow (K : ℕ) (cfg : Config C S) (G : Grid C (ZMod p)) (reg row : ℕ) (w : ℕ) (last : Bool) :
    Prop :=
  let v := G reg cfg.qS2 row
  v * (v - 1) = (if last then 2 else 0) ∧
  G reg cfg.bits row - (v - v * (v - 1)) * G reg cfg.bits (row + 1 : ℕ) * ((2 ^ K : ℕ) : ZMod p)
    = (w : ZMod p)

theorem piece_bits {reprBits K : ℕ} (hK : K ≠ 0) (hp : p ≠ 2) {gens : ℕ → ZMod p × ZMod p}
    {cfg : Config C S} {reg offset : ℕ} {P : Piece C (ZMod p)} (hP : Fits reprBits K P)
    {s : ZMod p × ZMod p} {final : Bool} {G : Grid C (ZMod p)}
    (hon : Honest G (pieceOps reprBits K gens cfg reg offset P s final)) (j : ℕ)
    (hj : j < (digitsOf K P.numWords P.cell.value.val).length) :
    BitRow K cfg G reg (offset + j) (digitsOf K P.numWords P.cell.value.val)[j]
      (final && decide (j + 1 = P.numWords)) := by
  have hj' : j < P.numWords := by simpa [digitsOf] using hj
  have h2 := LookupRange.two_pow_ne hp K
  -- the running sum
  have hz : ∀ i < P.numWords, G reg cfg.bits (offset + i : ℕ)
      = ((P.cell.value.val / (2 ^ K) ^ i : ℕ) : ZMod p) := by
    intro i hi
    cases i with
    | zero =>
      rw [pow_zero, Nat.div_one, ZMod.natCast_val, ZMod.cast_id]
      exact hon.1 ⟨reg, cfg.bits, offset⟩ _ (by unfold pieceOps; simp)
    | succ i =>
      have hlen := pieceZs_length (cfg := cfg) (reg := reg) (offset := offset) (hP.ok hK)
      have hm : (pieceZs reprBits K cfg reg offset P)[i + 1]'(by omega)
          ∈ (pieceZs reprBits K cfg reg offset P).tail := by
        have : (pieceZs reprBits K cfg reg offset P)[i + 1]'(by omega)
            = (pieceZs reprBits K cfg reg offset P).tail[i]'(by simp; omega) := by simp
        rw [this]; exact List.getElem_mem _
      have hv := hon.1 ((pieceZs reprBits K cfg reg offset P)[i + 1]'(by omega)).cell _ (by
        unfold pieceOps
        refine List.mem_append_left _ (List.mem_append_right _ (List.mem_map.2 ⟨_, hm, rfl⟩)))
      rw [pieceZs_cell (hP.ok hK)] at hv
      refine Eq.trans hv ?_
      have hw : (words reprBits K P.cell.value P.numWords).dropLast.map (fun (w : ℕ) => (w : ZMod p))
          = (List.range (P.numWords - 1)).map fun i =>
            ((P.cell.value.val / (2 ^ K) ^ i % 2 ^ K : ℕ) : ZMod p) := by
        rw [words_eq hK hP.2.1]
        unfold digitsOf
        obtain ⟨m, hm⟩ : ∃ m, P.numWords = m + 1 := ⟨P.numWords - 1, by have := hP.1; omega⟩
        rw [hm, List.range_succ, List.map_append, List.map_singleton, List.dropLast_concat,
          List.map_map]
        rfl
      have hcell : P.cell.value = ((P.cell.value.val : ℕ) : ZMod p) := by
        rw [ZMod.natCast_val, ZMod.cast_id]
      have key := sumCells_digits (F := ZMod p) reg cfg.bits (B := 2 ^ K) h2 (P.numWords - 1) offset
        P.cell.value.val i
      simp only [pieceZs, List.getElem_cons_succ, hw]
      rw [← hcell] at key
      exact key (by rw [sumCells_length]; simp; omega)
  unfold BitRow
  dsimp only
  have hd : (digitsOf K P.numWords P.cell.value.val)[j] = P.cell.value.val / (2 ^ K) ^ j % 2 ^ K := by
    simp [digitsOf]
  rw [hd, hz j hj']
  by_cases hj1 : j + 1 < P.numWords
  · have hq : G reg cfg.qS2 (offset + j : ℕ) = 1 := hon.2 ⟨reg, cfg.qS2, (offset + j : ℕ)⟩ 1 (by
      unfold pieceOps
      simp only [List.mem_append, List.mem_map, List.mem_range]
      exact .inl (.inl (.inl (.inr ⟨j, by omega, rfl⟩))))
    rw [hq, show offset + j + 1 = offset + (j + 1) by omega, hz (j + 1) hj1]
    refine ⟨?_, ?_⟩
    · rw [if_neg (by simp; omega)]; ring
    · have e := Nat.div_add_mod (P.cell.value.val / (2 ^ K) ^ j) (2 ^ K)
      rw [Nat.div_div_eq_div_mul, ← pow_succ] at e
      have e' : ((2 ^ K : ℕ) : ZMod p) * ((P.cell.value.val / (2 ^ K) ^ (j + 1) : ℕ) : ZMod p)
          + ((P.cell.value.val / (2 ^ K) ^ j % 2 ^ K : ℕ) : ZMod p)
          = ((P.cell.value.val / (2 ^ K) ^ j : ℕ) : ZMod p) := by
        rw [← Nat.cast_mul, ← Nat.cast_add, e]
      linear_combination -e'
  · have hq : G reg cfg.qS2 (offset + j : ℕ) = if final then 2 else 0 :=
      hon.2 ⟨reg, cfg.qS2, (offset + j : ℕ)⟩ _ (by
        unfold pieceOps
        rw [show offset + P.numWords - 1 = offset + j by omega]
        simp)
    have hfin : P.cell.value.val / (2 ^ K) ^ j % 2 ^ K = P.cell.value.val / (2 ^ K) ^ j := by
      refine Nat.mod_eq_of_lt ?_
      rw [Nat.div_lt_iff_lt_mul (by positivity), ← pow_succ', ← pow_mul,
        show j + 1 = P.numWords by omega]
      exact hP.2.2
    have hjN : decide (j + 1 = P.numWords) = true := by simp; omega
    rw [hq, hfin, hjN, Bool.and_true]
    cases final with
    | true => simp only [if_true]; exact ⟨by ring, by ring⟩
    | false => simp

theorem pieces_bits {reprBits K : ℕ} (hK : K ≠ 0) (hp : p ≠ 2) {gens : ℕ → ZMod p × ZMod p}
    {cfg : Config C S} {reg offset : ℕ} {message : List (Piece C (ZMod p))}
    (hfit : ∀ P ∈ message, Fits reprBits K P)
    {s : ZMod p × ZMod p} {G : Grid C (ZMod p)}
    (hon : Honest G (piecesOps reprBits K gens cfg reg offset message s)) (i : ℕ)
    (hi : i < (msgWords K message).length) :
    BitRow K cfg G reg (offset + i) (msgWords K message)[i] (decide (i + 1 = rowsOf message)) := by
  induction message generalizing offset s i with
  | nil => simp [msgWords] at hi
  | cons P rest ih =>
    have hrows : rowsOf (P :: rest) = P.numWords + rowsOf rest := by simp [rowsOf]
    have hdl : (digitsOf K P.numWords P.cell.value.val).length = P.numWords := by simp [digitsOf]
    have hmw : msgWords K (P :: rest) = digitsOf K P.numWords P.cell.value.val ++ msgWords K rest := by
      simp [msgWords]
    simp only [hmw] at hi ⊢
    by_cases hlt : i < (digitsOf K P.numWords P.cell.value.val).length
    · rw [List.getElem_append_left hlt]
      have := piece_bits hK hp (hfit P (by simp)) hon.left i hlt
      convert this using 1
      cases rest with
      | nil => simp [rowsOf]
      | cons P' r' =>
        have hN' := (hfit P' (by simp)).1
        simp only [List.isEmpty_cons, Bool.false_and, decide_eq_false_iff_not]
        rw [hrows]
        simp only [rowsOf, List.map_cons, List.sum_cons]
        omega
    · rw [List.getElem_append_right (by omega)]
      have := ih (fun Q hQ => hfit Q (by simp [hQ])) hon.right
        (i - (digitsOf K P.numWords P.cell.value.val).length)
        (by rw [List.length_append] at hi; omega)
      rw [show offset + P.numWords + (i - (digitsOf K P.numWords P.cell.value.val).length)
        = offset + i by omega] at this
      convert this using 1
      rw [hrows]
      congr 1
      apply propext
      omega

/-- The rows of the whole message are among the operations. -/
theorem pieces_rows {reprBits K : ℕ} {gens : ℕ → ZMod p × ZMod p} {cfg : Config C S}
    {reg offset : ℕ} {message : List (Piece C (ZMod p))} (hok : ∀ P ∈ message, PieceOk reprBits K P)
    {s : ZMod p × ZMod p} :
    ∀ op ∈ rowsOps cfg reg offset s (allGens reprBits K gens message),
      op ∈ piecesOps reprBits K gens cfg reg offset message s := by
  induction message generalizing offset s with
  | nil => intro op h; exact h
  | cons P rest ih =>
    intro op h
    have e : allGens reprBits K gens (P :: rest)
        = pieceGens reprBits K gens P ++ allGens reprBits K gens rest := by simp [allGens]
    have hl : (pieceGens reprBits K gens P).length = P.numWords := by
      unfold pieceGens; rw [List.length_map, (hok P (by simp)).2.2]
    rw [e, rowsOps_append, hl] at h
    rcases List.mem_append.1 h with h | h
    · exact List.mem_append_left _ (List.mem_append_right _ h)
    · exact List.mem_append_right _ (ih (fun Q hQ => hok Q (by simp [hQ])) op h)

/-- The operations of the pieces that are constraints. -/
theorem rowsOps_advice {F : Type} [Field F] {cfg : Config C S} {reg row : ℕ} {s : F × F} {gs : List (F × F)}
    {op : Op C S F} (h : op ∈ rowsOps cfg reg row s gs) : ∃ c v, op = .advice c v := by
  induction gs generalizing row s with
  | nil => simp [rowsOps] at h
  | cons g gs ih =>
    rw [rowsOps] at h
    rcases List.mem_append.1 h with h | h
    · simp only [List.mem_cons, List.not_mem_nil, or_false] at h
      rcases h with rfl | rfl | rfl | rfl <;> exact ⟨_, _, rfl⟩
    · exact ih h

theorem pieces_constraints {reprBits K : ℕ} {gens : ℕ → ZMod p × ZMod p} {cfg : Config C S}
    {reg offset : ℕ} {message : List (Piece C (ZMod p))} {s : ZMod p × ZMod p}
    {op : Op C S (ZMod p)} (h : op ∈ piecesOps reprBits K gens cfg reg offset message s) :
    (∃ i < rowsOf message, op = .enable cfg.qS1 reg ((offset + i : ℕ) : ℤ)) ∨
    (∃ c v, op = .fixed c v) ∨ (∃ c v, op = .advice c v) ∨
    ∃ P ∈ message, ∃ c, op = .equal c P.cell.cell ∧
      .advice c P.cell.value ∈ piecesOps reprBits K gens cfg reg offset message s := by
  induction message generalizing offset s with
  | nil => simp [piecesOps] at h
  | cons P rest ih =>
    have hrows : rowsOf (P :: rest) = P.numWords + rowsOf rest := by simp [rowsOf]
    rw [piecesOps] at h
    rcases List.mem_append.1 h with h | h
    · unfold pieceOps at h
      rcases List.mem_append.1 h with h | h
      · rcases List.mem_append.1 h with h | h
        · rcases List.mem_append.1 h with h | h
          · rcases List.mem_append.1 h with h | h
            · obtain ⟨i, hi, rfl⟩ := List.mem_map.1 h
              rw [List.mem_range] at hi
              exact .inl ⟨i, by omega, rfl⟩
            · obtain ⟨i, hi, rfl⟩ := List.mem_map.1 h
              exact .inr (.inl ⟨_, _, rfl⟩)
          · simp only [List.mem_cons, List.not_mem_nil, or_false] at h
            rcases h with rfl | rfl | rfl
            · exact .inr (.inl ⟨_, _, rfl⟩)
            · exact .inr (.inr (.inl ⟨_, _, rfl⟩))
            · refine .inr (.inr (.inr ⟨P, by simp, _, rfl, ?_⟩))
              rw [piecesOps]
              refine List.mem_append_left _ ?_
              unfold pieceOps
              simp
        · obtain ⟨c, -, rfl⟩ := List.mem_map.1 h
          exact .inr (.inr (.inl ⟨_, _, rfl⟩))
      · exact .inr (.inr (.inl (rowsOps_advice h)))
    · rcases ih h with ⟨i, hi, rfl⟩ | h | h | ⟨Q, hQ, c, rfl, h'⟩
      · exact .inl ⟨P.numWords + i, by omega, by rw [add_assoc]⟩
      · exact .inr (.inl h)
      · exact .inr (.inr (.inl h))
      · exact .inr (.inr (.inr ⟨Q, by simp [hQ], c, rfl, List.mem_append_right _ h'⟩))

/-- The accumulators of a hash that is defined. -/
theorem acc_complete (hg : Good b) {gen : ℕ → Pt b} {ws : List ℕ} {Q R : Pt b}
    (h : specHash gen Q ws = some R) {s : ZMod p × ZMod p} (hs : enc Q = s) :
    enc R = (ws.map fun w => enc (gen w)).foldl next s ∧
    ∀ i (hi : i < ws.length), ∃ A, enc A = ((ws.take i).map fun w => enc (gen w)).foldl next s ∧
      StepOk (gen ws[i]) A true := by
  induction ws generalizing Q s with
  | nil =>
    cases h
    exact ⟨hs, by simp⟩
  | cons w ws ih =>
    by_cases hok : StepOk (gen w) Q true
    · rw [stepOk_spec hok gen rfl] at h
      have hrow := row_complete hg hok (xp := (enc (gen w)).1) (yp := (enc (gen w)).2) rfl
        (xa := s.1) (ya := s.2) hs
      have hn : enc (dstep (gen w) Q true) = next s (enc (gen w)) := hrow.1
      obtain ⟨h1, h2⟩ := ih h hn
      refine ⟨h1, fun i hi => ?_⟩
      cases i with
      | zero => exact ⟨Q, hs, hok⟩
      | succ i => exact h2 i (by simpa using hi)
    · rw [specHash_none hok gen rfl] at h
      cases h

/-- The equations of the rows of an honest hash. -/
theorem hash_rows (hg : Good b) {reprBits K : ℕ} (hK : K ≠ 0) {gen : ℕ → Pt b} {cfg : Config C S}
    {reg offset : ℕ} {message : List (Piece C (ZMod p))} (hfit : ∀ P ∈ message, Fits reprBits K P)
    {Q R : Pt b} (hspec : specHash gen Q (msgWords K message) = some R) {s : ZMod p × ZMod p}
    (hs : enc Q = s) {G : Grid C (ZMod p)}
    (hon : Honest G (hashOps reprBits K (fun w => enc (gen w)) cfg reg offset message s))
    (hx : G reg cfg.da.xA offset = s.1) :
    (∀ i (hi : i < (msgWords K message).length), RowEq (fun w => enc (gen w)) cfg G reg (offset + i)
      (msgWords K message)[i] (decide (i + 1 = rowsOf message))) ∧
    (message ≠ [] → cfg.da.YA (G.query reg offset) 0 = 2 * s.2) ∧
    enc R = ((allGens reprBits K (fun w => enc (gen w)) message).foldl next s) := by
  obtain ⟨hR, hacc⟩ := acc_complete hg hspec hs
  have hgens := allGens_eq (gens := fun w => enc (gen w)) hK hfit
  have hok : ∀ P ∈ message, PieceOk reprBits K P := fun P hP => (hfit P hP).ok hK
  have hrows : ∀ c v, .advice c v ∈ rowsOps cfg reg offset s
      ((msgWords K message).map fun w => enc (gen w)) → G.at c = v := by
    intro c v hm
    rw [← hgens] at hm
    exact hon.1 c v (List.mem_append_left _ (pieces_rows hok _ hm))
  set ws := msgWords K message with hws
  have hlen : ws.length = rowsOf message := msgWords_length
  -- accumulators
  let st : ℕ → ZMod p × ZMod p := fun i => ((ws.take i).map fun w => enc (gen w)).foldl next s
  have hcell : ∀ i (hi : i < ws.length),
      G reg cfg.da.xP (offset + i : ℕ) = (enc (gen ws[i])).1 ∧
      G reg cfg.da.lambda1 (offset + i : ℕ) = (rowVals (enc (gen ws[i])) (st i).1 (st i).2).1 ∧
      G reg cfg.da.lambda2 (offset + i : ℕ) = (rowVals (enc (gen ws[i])) (st i).1 (st i).2).2.1 ∧
      G reg cfg.da.xA (offset + i + 1 : ℕ) = (st (i + 1)).1 := by
    intro i hi
    have := rows_honest hrows i (by simpa using hi)
    simp only [List.getElem_map, ← List.map_take] at this
    exact this
  have hxA : ∀ i ≤ ws.length, G reg cfg.da.xA (offset + i : ℕ) = (st i).1 := by
    intro i hi
    cases i with
    | zero => exact hx
    | succ i => exact (hcell i (by omega)).2.2.2
  have hst : ∀ i (hi : i < ws.length), st (i + 1) = next (st i) (enc (gen ws[i])) := by
    intro i hi
    simp only [st, List.take_succ_eq_append_getElem hi, List.map_append, List.map_cons, List.map_nil,
      List.foldl_append, List.foldl_cons, List.foldl_nil]
  have hstep : ∀ i (hi : i < ws.length), let v := rowVals (enc (gen ws[i])) (st i).1 (st i).2
      (enc (gen ws[i])).2 = (st i).2 - v.1 * ((st i).1 - (enc (gen ws[i])).1) ∧
      (v.1 + v.2.1) * ((st i).1 - (v.1 ^ 2 - (st i).1 - (enc (gen ws[i])).1)) = 2 * (st i).2 ∧
      v.2.1 ^ 2 - (v.2.2.1 + (v.1 ^ 2 - (st i).1 - (enc (gen ws[i])).1) + (st i).1) = 0 ∧
      v.2.2.2 = v.2.1 * ((st i).1 - v.2.2.1) - (st i).2 := by
    intro i hi
    obtain ⟨A, hA, hok⟩ := hacc i hi
    exact (row_complete hg hok (xp := (enc (gen ws[i])).1) (yp := (enc (gen ws[i])).2) rfl
      (xa := (st i).1) (ya := (st i).2) hA).2
  have hYA : ∀ i (hi : i < ws.length), cfg.da.YA (G.query reg (offset + i : ℕ)) 0 = 2 * (st i).2 := by
    intro i hi
    obtain ⟨c1, c2, c3, -⟩ := hcell i hi
    simp only [DoubleAndAdd.YA, DoubleAndAdd.xR, Grid.query, add_zero, c1, c2, c3, hxA i hi.le]
    exact (hstep i hi).2.1
  have hlast : G reg cfg.da.lambda1 (offset + rowsOf message : ℕ) = (st ws.length).2 := by
    have := hon.1 ⟨reg, cfg.da.lambda1, (offset + rowsOf message : ℕ)⟩ _
      (List.mem_append_right _ (List.mem_cons_self ..))
    rw [hgens] at this
    simp only [st, List.take_length]
    exact this
  have h22 : (2 : ZMod p) * 2⁻¹ = 1 := mul_inv_cancel₀ hg.two
  refine ⟨fun i hi => ?_, fun hne => ?_, ?_⟩
  · obtain ⟨c1, c2, c3, c4⟩ := hcell i hi
    obtain ⟨e1, e2, e3, e4⟩ := hstep i hi
    have c4' : G reg cfg.da.xA (offset + i + 1 : ℕ)
        = (rowVals (enc (gen ws[i])) (st i).1 (st i).2).2.2.1 := by
      rw [c4, hst i hi]; rfl
    have hy' : (st (i + 1)).2 = (rowVals (enc (gen ws[i])) (st i).1 (st i).2).2.2.2 := by
      rw [hst i hi]; rfl
    refine ⟨c1, ?_, ?_, ?_⟩
    · rw [hYA i hi, c1, c2, hxA i hi.le, e1]
      linear_combination (st i).2 * h22
    · rw [c3, c4']
      simp only [DoubleAndAdd.xR, Grid.query, add_zero, c1, c2, hxA i hi.le]
      exact e3
    · rw [c3, c4', hYA i hi, hxA i hi.le]
      by_cases hl : i + 1 = rowsOf message
      · rw [decide_eq_true hl, if_pos rfl, show offset + i + 1 = offset + rowsOf message by omega,
          hlast, hlen, ← hl, hy', e4]
        ring
      · rw [decide_eq_false hl, if_neg (by simp), show offset + i + 1 = offset + (i + 1) by omega,
          hYA (i + 1) (by omega), hy', e4]
        ring
  · have h0 : 0 < ws.length := by
      rw [hlen]
      obtain ⟨P, hP⟩ := List.exists_mem_of_ne_nil _ hne
      have h' := (hfit P hP).1
      have : P.numWords ≤ (message.map Piece.numWords).sum :=
        List.single_le_sum (by simp) _ (List.mem_map_of_mem hP)
      unfold rowsOf; omega
    exact hYA 0 h0
  · rw [hgens]; exact hR

end Verif.Sinsemilla
