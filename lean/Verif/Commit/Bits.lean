import Verif.Commit.Model
import Verif.Sinsemilla.Props

/-!
# A message made from a string of bits spells these bits (C68)
-/

namespace Verif.Commit

open Verif.Region Verif.Ecc Verif.Utilities Verif.Sinsemilla

variable {C S : Type} {p : ℕ} [Fact p.Prime]

/-! ## Specification -/

/-- The number with the given bits, the lowest one first. -/
def bitsVal (bits : List Bool) : ℕ := Nat.ofDigits 2 (bits.map Bool.toNat)

/-- The words of `K` bits of a string, one after the other. -/
def wordsOf (K : ℕ) (bits : List Bool) : List ℕ :=
  (List.range (bits.length / K)).map fun i => bitsVal ((bits.drop (i * K)).take K)

/-! ## Bits -/

theorem bitsVal_cons (x : Bool) (l : List Bool) : bitsVal (x :: l) = x.toNat + 2 * bitsVal l := by
  simp [bitsVal, Nat.ofDigits_cons]

theorem bitsVal_lt (l : List Bool) : bitsVal l < 2 ^ l.length := by
  induction l with
  | nil => simp [bitsVal]
  | cons x l ih =>
    rw [bitsVal_cons, List.length_cons, pow_succ]
    cases x <;> simp <;> omega

theorem bitsVal_div (l : List Bool) (m : ℕ) : bitsVal l / 2 ^ m = bitsVal (l.drop m) := by
  induction m generalizing l with
  | zero => simp
  | succ m ih =>
    cases l with
    | nil => simp [bitsVal]
    | cons x l =>
      rw [List.drop_succ_cons, ← ih, pow_succ', ← Nat.div_div_eq_div_mul, bitsVal_cons]
      congr 1
      cases x <;> simp <;> omega

theorem bitsVal_mod (l : List Bool) (m : ℕ) : bitsVal l % 2 ^ m = bitsVal (l.take m) := by
  induction m generalizing l with
  | zero => simp [bitsVal, Nat.mod_one]
  | succ m ih =>
    cases l with
    | nil => simp [bitsVal]
    | cons x l =>
      rw [List.take_succ_cons, bitsVal_cons, bitsVal_cons, ← ih, pow_succ']
      have h2 : bitsVal l = 2 ^ m * (bitsVal l / 2 ^ m) + bitsVal l % 2 ^ m := (Nat.div_add_mod _ _).symm
      have h3 : bitsVal l % 2 ^ m < 2 ^ m := Nat.mod_lt _ (by positivity)
      have h4 : x.toNat + 2 * bitsVal l
          = (x.toNat + 2 * (bitsVal l % 2 ^ m)) + 2 * 2 ^ m * (bitsVal l / 2 ^ m) := by
        conv_lhs => rw [h2]
        ring
      rw [h4, Nat.add_mul_mod_self_left, Nat.mod_eq_of_lt]
      cases x <;> simp <;> omega

theorem toBaseField_eq (bits : List Bool) : (toBaseField bits : ZMod p) = (bitsVal bits : ℕ) := by
  unfold toBaseField
  rw [List.foldl_reverse]
  induction bits with
  | nil => simp [bitsVal]
  | cons x l ih =>
    rw [List.foldr_cons, ih, bitsVal_cons]
    cases x <;> simp <;> ring

theorem digits_words (K : ℕ) (bits : List Bool) :
    digitsOf K (bits.length / K) (bitsVal bits) = wordsOf K bits := by
  unfold digitsOf wordsOf
  refine List.map_congr_left fun i _ => ?_
  rw [← pow_mul, bitsVal_div, bitsVal_mod, Nat.mul_comm K i]

theorem wordsOf_append {K : ℕ} (hK : K ≠ 0) {a : List Bool} (ha : a.length % K = 0) (c : List Bool) :
    wordsOf K (a ++ c) = wordsOf K a ++ wordsOf K c := by
  obtain ⟨m, hm⟩ := Nat.dvd_of_mod_eq_zero ha
  have h1 : a.length / K = m := by rw [hm, Nat.mul_div_cancel_left _ (by omega)]
  have h2 : (a ++ c).length / K = m + c.length / K := by
    rw [List.length_append, hm, Nat.mul_add_div (by omega)]
  unfold wordsOf
  rw [h1, h2, List.range_add, List.map_append, List.map_map]
  congr 1
  · refine List.map_congr_left fun i hi => ?_
    rw [List.mem_range] at hi
    have hle : i * K + K ≤ a.length := by
      rw [hm, Nat.mul_comm K m]
      calc i * K + K = (i + 1) * K := by ring
        _ ≤ m * K := Nat.mul_le_mul_right _ hi
    rw [List.drop_append_of_le_length (by omega), List.take_append_of_le_length]
    rw [List.length_drop]; omega
  · refine List.map_congr_left fun i _ => ?_
    have : (m + i) * K = a.length + i * K := by rw [hm]; ring
    simp only [Function.comp_apply]
    rw [this, List.drop_append, List.drop_eq_nil_of_le (by omega), List.nil_append,
      Nat.add_sub_cancel_left]

/-- The words determine the bits. -/
theorem wordsOf_flatten {K : ℕ} (hK : K ≠ 0) {a c : List Bool} (ha : a.length % K = 0)
    (hlen : a.length = c.length) (h : wordsOf K a = wordsOf K c) : a = c := by
  have inj : ∀ a c : List Bool, a.length = c.length → bitsVal a = bitsVal c → a = c := by
    intro a
    induction a with
    | nil => intro c hc _; exact (List.length_eq_zero_iff.1 hc.symm).symm
    | cons x a ih =>
      intro c hc hv
      cases c with
      | nil => simp at hc
      | cons y c =>
        rw [bitsVal_cons, bitsVal_cons] at hv
        have hxy : x = y := by cases x <;> cases y <;> simp at hv ⊢ <;> omega
        subst hxy
        rw [ih c (by simpa using hc) (by omega)]
  refine inj a c hlen ?_
  have e : ∀ l : List Bool, l.length % K = 0 → bitsVal l = Nat.ofDigits (2 ^ K) (wordsOf K l) := by
    intro l hl
    rw [← digits_words, digitsOf_value]
    rw [Nat.mul_div_cancel' (Nat.dvd_of_mod_eq_zero hl)]
    exact bitsVal_lt l
  rw [e a ha, e c (hlen ▸ ha), h]

/-! ## The pieces -/

theorem chunks_flatten {α : Type} {n : ℕ} (hn : n ≠ 0) (l : List α) : (chunks n l).flatten = l := by
  induction hk : l.length using Nat.strong_induction_on generalizing l with
  | _ k ih =>
    cases l with
    | nil => simp [chunks]
    | cons x l =>
      rw [chunks, if_neg hn, List.flatten_cons, ih ((x :: l).drop n).length (by
        rw [List.length_drop, ← hk, List.length_cons]; omega) _ rfl, List.take_append_drop]

theorem chunks_spec {α : Type} {n : ℕ} {l c : List α} (h : c ∈ chunks n l) :
    0 < c.length ∧ c.length ≤ n ∧ ∀ K, n % K = 0 → l.length % K = 0 → c.length % K = 0 := by
  induction hk : l.length using Nat.strong_induction_on generalizing l with
  | _ k ih =>
    cases l with
    | nil => simp [chunks] at h
    | cons x l =>
      rw [chunks] at h
      split_ifs at h with hn
      · simp at h
      rcases List.mem_cons.1 h with rfl | h
      · refine ⟨by simp; omega, by simp, fun K h1 h2 => ?_⟩
        rw [List.length_take]
        rcases Nat.le_total n (x :: l).length with hle | hle
        · rwa [Nat.min_eq_left hle]
        · rw [Nat.min_eq_right hle, hk]; exact h2
      · obtain ⟨g1, g2, g3⟩ := ih ((x :: l).drop n).length (by
          rw [List.length_drop, ← hk, List.length_cons]; omega) h rfl
        refine ⟨g1, g2, fun K h1 h2 => g3 K h1 ?_⟩
        rw [List.length_drop, hk]
        exact Nat.mod_eq_zero_of_dvd (Nat.dvd_sub (Nat.dvd_of_mod_eq_zero h2)
          (Nat.dvd_of_mod_eq_zero h1))

/-- Piece `P` stands for the bits `c`. -/
structure Spells (reprBits K : ℕ) (P : Piece C (ZMod p)) (c : List Bool) : Prop where
  words : P.numWords = c.length / K
  value : P.cell.value = (bitsVal c : ℕ)
  fits : Fits reprBits K P
  digits : digitsOf K P.numWords P.cell.value.val = wordsOf K c

theorem piece_run {numBits reprBits K : ℕ} (hp : 2 ^ (numBits - 1) ≤ p) (hr : numBits ≤ reprBits)
    (cfg : Sinsemilla.Config C S) {c : List Bool} (hK : K ≠ 0) (h1 : c.length % K = 0)
    (h0 : 0 < c.length) (h2 : c.length ≤ (numBits - 1) / K * K) (n : ℕ) :
    ∃ P : Piece C (ZMod p), pieceFromBitstring numBits K cfg c n
        = some (P, n + 1, [.advice ⟨n, cfg.witnessPieces, 0⟩ P.cell.value]) ∧
      P.cell.cell = ⟨n, cfg.witnessPieces, 0⟩ ∧ Spells reprBits K P c := by
  have hle : (numBits - 1) / K * K ≤ numBits - 1 := Nat.div_mul_le_self _ _
  have hdiv : c.length / K * K = c.length := Nat.div_mul_cancel (Nat.dvd_of_mod_eq_zero h1)
  have hw : c.length / K ≤ (numBits - 1) / K := by
    rw [Nat.div_le_iff_le_mul_add_pred (by omega)]
    rw [Nat.mul_comm]; omega
  have hval : (toBaseField c : ZMod p).val = bitsVal c := by
    rw [toBaseField_eq, ZMod.val_natCast, Nat.mod_eq_of_lt]
    exact lt_of_lt_of_le (lt_of_lt_of_le (bitsVal_lt c)
      (Nat.pow_le_pow_right (by norm_num) (h2.trans hle))) hp
  refine ⟨⟨⟨⟨n, cfg.witnessPieces, 0⟩, toBaseField c⟩, c.length / K⟩, ?_, rfl, rfl, toBaseField_eq c, ?_, ?_⟩
  · refine bind_of (ops₁ := []) (assert_of ⟨hK, h1⟩ n) ?_
    refine bind_of (ops₁ := []) (assert_of hw n) ?_
    exact bind_of (n' := n + 1) (ops₁ := [.advice ⟨n, cfg.witnessPieces, 0⟩ (toBaseField c)]) rfl
      (bind_of (ops₁ := []) (assert_of (by omega) _) rfl)
  · refine ⟨?_, ?_, ?_⟩
    · intro e
      change c.length / K = 0 at e
      rw [e] at hdiv; omega
    · change K * (c.length / K) ≤ reprBits
      rw [Nat.mul_comm, hdiv]; omega
    · change (toBaseField c : ZMod p).val < 2 ^ (K * (c.length / K))
      rw [hval, Nat.mul_comm, hdiv]; exact bitsVal_lt c
  · change digitsOf K (c.length / K) (toBaseField c : ZMod p).val = _
    rw [hval, digits_words]

theorem pieces_run {numBits reprBits K : ℕ} (hp : 2 ^ (numBits - 1) ≤ p) (hr : numBits ≤ reprBits)
    (cfg : Sinsemilla.Config C S) (hK : K ≠ 0) (cs : List (List Bool))
    (h : ∀ c ∈ cs, c.length % K = 0 ∧ 0 < c.length ∧ c.length ≤ (numBits - 1) / K * K) (n : ℕ) :
    ∃ Ps : List (Piece C (ZMod p)), piecesFrom numBits K cfg cs n
        = some (Ps, n + cs.length, Ps.map fun P => .advice P.cell.cell P.cell.value) ∧
      Ps.map (fun P => P.cell.cell)
        = (List.range cs.length).map (fun i => ⟨n + i, cfg.witnessPieces, 0⟩) ∧
      List.Forall₂ (Spells reprBits K) Ps cs := by
  induction cs generalizing n with
  | nil => exact ⟨[], rfl, rfl, .nil⟩
  | cons c cs ih =>
    obtain ⟨a1, a2, a3⟩ := h c (List.mem_cons_self ..)
    obtain ⟨P, hP, hc, hs⟩ := piece_run hp hr cfg hK a1 a2 a3 n
    obtain ⟨Ps, hPs, hcs, hss⟩ := ih (fun c hc => h c (List.mem_cons_of_mem _ hc)) (n + 1)
    refine ⟨P :: Ps, ?_, ?_, .cons hs hss⟩
    · have := bind_of (f := fun P => piecesFrom numBits K cfg cs >>= fun Ps =>
          (pure (P :: Ps) : M C S (ZMod p) _)) hP
        (bind_of (f := fun Ps => (pure (P :: Ps) : M C S (ZMod p) _)) hPs
        (rfl : _ = some (_, _, [])))
      rw [List.append_nil, Nat.add_right_comm, Nat.add_assoc, ← hc] at this
      exact this
    · rw [List.map_cons, hcs, hc, List.length_cons, List.range_succ_eq_map, List.map_cons, List.map_map]
      refine congrArg₂ _ rfl (List.map_congr_left fun i _ => ?_)
      simp only [Function.comp_apply, Nat.succ_eq_add_one, Cell.mk.injEq, and_self, and_true]
      omega

theorem spells_words {reprBits K : ℕ} (hK : K ≠ 0) {Ps : List (Piece C (ZMod p))}
    {cs : List (List Bool)} (h : List.Forall₂ (Spells reprBits K) Ps cs)
    (hc : ∀ c ∈ cs, c.length % K = 0) :
    msgWords K Ps = wordsOf K cs.flatten ∧ (Ps.map Piece.numWords).sum = cs.flatten.length / K := by
  induction h with
  | nil => exact ⟨by simp [msgWords, wordsOf], by simp⟩
  | @cons P c Ps cs hP _ ih =>
    obtain ⟨i1, i2⟩ := ih fun c hc' => hc c (List.mem_cons_of_mem _ hc')
    have h0 := hc c (List.mem_cons_self ..)
    refine ⟨?_, ?_⟩
    · rw [List.flatten_cons, wordsOf_append hK h0, ← i1, ← hP.digits]
      rfl
    · rw [List.map_cons, List.sum_cons, i2, hP.words, List.flatten_cons, List.length_append,
        Nat.add_div_of_dvd_right (Nat.dvd_of_mod_eq_zero h0)]

/-- **C68.** `from_bitstring` succeeds exactly on strings made of words, fewer than `MAX_WORDS` (and
not, as its own check has it, at most `MAX_WORDS`), and the words of the message it returns are those
of the string.  The field has `numBits` bits, its representation `reprBits`. -/
theorem messageFromBitstring_iff {numBits reprBits K maxWords : ℕ} (hp : 2 ^ (numBits - 1) ≤ p)
    (hr : numBits ≤ reprBits) (cfg : Sinsemilla.Config C S) (bits : List Bool) (n : ℕ) :
    ((messageFromBitstring numBits K maxWords cfg bits : M C S (ZMod p) _) n).isSome ↔
      0 < K ∧ K < numBits ∧ bits.length % K = 0 ∧ bits.length / K < maxWords := by
  constructor
  · intro h
    obtain ⟨⟨Ps, n', ops⟩, h⟩ := Option.isSome_iff_exists.1 h
    unfold messageFromBitstring at h
    obtain ⟨_, _, _, _, h1, k1, rfl⟩ := bind_some h
    obtain ⟨⟨hK, hmod⟩, rfl, rfl⟩ := assert_some h1
    obtain ⟨_, _, _, _, h2, k2, rfl⟩ := bind_some k1
    obtain ⟨hmax, rfl, rfl⟩ := assert_some h2
    obtain ⟨_, _, _, _, h3, k3, rfl⟩ := bind_some k2
    obtain ⟨hcap, rfl, rfl⟩ := assert_some h3
    obtain ⟨Ps', _, _, _, h4, k4, rfl⟩ := bind_some k3
    have hcap' : K ≤ numBits - 1 := by
      by_contra hlt
      rw [Nat.div_eq_of_lt (by omega), Nat.zero_mul] at hcap
      exact hcap rfl
    have hcs : ∀ c ∈ chunks ((numBits - 1) / K * K) bits,
        c.length % K = 0 ∧ 0 < c.length ∧ c.length ≤ (numBits - 1) / K * K := fun c hc =>
      ⟨(chunks_spec hc).2.2 K (Nat.mul_mod_left _ _) hmod, (chunks_spec hc).1, (chunks_spec hc).2.1⟩
    obtain ⟨Ps2, hrun, -, hss⟩ := pieces_run hp hr cfg hK _ hcs _
    rw [hrun] at h4
    cases h4
    unfold messageFrom at k4
    obtain ⟨_, _, _, _, h5, k5, rfl⟩ := bind_some k4
    obtain ⟨hsum, rfl, rfl⟩ := assert_some h5
    rw [(spells_words hK hss fun c hc => (hcs c hc).1).2, chunks_flatten hcap] at hsum
    exact ⟨by omega, by omega, hmod, hsum⟩
  · rintro ⟨hK, hKn, hmod, hmax⟩
    have hK' : K ≠ 0 := by omega
    have hcap : (numBits - 1) / K * K ≠ 0 := by
      refine Nat.mul_ne_zero (Nat.div_ne_zero_iff.2 ⟨hK', by omega⟩) hK'
    have hcs : ∀ c ∈ chunks ((numBits - 1) / K * K) bits,
        c.length % K = 0 ∧ 0 < c.length ∧ c.length ≤ (numBits - 1) / K * K := fun c hc =>
      ⟨(chunks_spec hc).2.2 K (Nat.mul_mod_left _ _) hmod, (chunks_spec hc).1, (chunks_spec hc).2.1⟩
    obtain ⟨Ps, hrun, -, hss⟩ := pieces_run hp hr cfg hK' _ hcs n
    have hsum := (spells_words hK' hss fun c hc => (hcs c hc).1).2
    rw [chunks_flatten hcap] at hsum
    rw [Option.isSome_iff_exists]
    refine ⟨_, bind_of (ops₁ := []) (assert_of ⟨hK', hmod⟩ n) (bind_of (ops₁ := []) (assert_of hmax.le n)
      (bind_of (ops₁ := []) (assert_of hcap n) (bind_of hrun (bind_of (ops₁ := [])
        (assert_of (by rw [hsum]; exact hmax) _) rfl))))⟩

/-- **C68.** What `from_bitstring` returns: pieces that fit, in the first rows of new regions, whose
words are the words of the string. -/
theorem messageFromBitstring_spec {numBits reprBits K maxWords : ℕ} (hp : 2 ^ (numBits - 1) ≤ p)
    (hr : numBits ≤ reprBits) {cfg : Sinsemilla.Config C S} {bits : List Bool} {n n' : ℕ}
    {Ps : List (Piece C (ZMod p))} {ops : List (Op C S (ZMod p))}
    (h : messageFromBitstring numBits K maxWords cfg bits n = some (Ps, n', ops)) :
    msgWords K Ps = wordsOf K bits ∧ (∀ P ∈ Ps, Fits reprBits K P ∧ K * P.numWords < numBits) ∧
    (Ps = [] ↔ bits = []) ∧ n' = n + Ps.length ∧
    Ps.map (fun P => P.cell.cell)
      = (List.range Ps.length).map (fun i => ⟨n + i, cfg.witnessPieces, 0⟩) ∧
    ops = Ps.map fun P => .advice P.cell.cell P.cell.value := by
  unfold messageFromBitstring at h
  obtain ⟨_, _, _, _, h1, k1, rfl⟩ := bind_some h
  obtain ⟨⟨hK, hmod⟩, rfl, rfl⟩ := assert_some h1
  obtain ⟨_, _, _, _, h2, k2, rfl⟩ := bind_some k1
  obtain ⟨hmax, rfl, rfl⟩ := assert_some h2
  obtain ⟨_, _, _, _, h3, k3, rfl⟩ := bind_some k2
  obtain ⟨hcap, rfl, rfl⟩ := assert_some h3
  obtain ⟨Ps', _, _, _, h4, k4, rfl⟩ := bind_some k3
  have hcs : ∀ c ∈ chunks ((numBits - 1) / K * K) bits,
      c.length % K = 0 ∧ 0 < c.length ∧ c.length ≤ (numBits - 1) / K * K := fun c hc =>
    ⟨(chunks_spec hc).2.2 K (Nat.mul_mod_left _ _) hmod, (chunks_spec hc).1, (chunks_spec hc).2.1⟩
  obtain ⟨Ps2, hrun, hcells, hss⟩ := pieces_run hp hr cfg hK _ hcs _
  rw [hrun] at h4
  cases h4
  unfold messageFrom at k4
  obtain ⟨_, _, _, _, h5, k5, rfl⟩ := bind_some k4
  obtain ⟨hsum, rfl, rfl⟩ := assert_some h5
  cases k5
  have hlen := hss.length_eq
  obtain ⟨hw, -⟩ := spells_words hK hss fun c hc => (hcs c hc).1
  rw [chunks_flatten hcap] at hw
  refine ⟨hw, fun P hP => ?_, ?_, by rw [hlen], by rw [hlen]; exact hcells, by simp⟩
  · obtain ⟨i, hi, rfl⟩ := List.getElem_of_mem hP
    have hs := List.forall₂_iff_get.1 hss
    have hsp := hs.2 i hi (by omega)
    simp only [List.get_eq_getElem] at hsp
    obtain ⟨c1, c2, c3⟩ := hcs _ (List.getElem_mem (show i < _ by omega))
    have hle : (numBits - 1) / K * K ≤ numBits - 1 := Nat.div_mul_le_self _ _
    refine ⟨hsp.fits, ?_⟩
    rw [hsp.words, Nat.mul_div_cancel' (Nat.dvd_of_mod_eq_zero c1)]
    have c4 := c3.trans hle
    omega
  · constructor
    · rintro rfl
      have h0 : chunks ((numBits - 1) / K * K) bits = [] := List.length_eq_zero_iff.1 hlen.symm
      have := chunks_flatten hcap bits
      rw [h0] at this
      exact this.symm
    · rintro rfl
      rw [chunks] at hlen
      exact List.length_eq_zero_iff.1 hlen

/-- The hypotheses at a concrete string: two words of five bits. -/
example (cfg : Sinsemilla.Config (Fin 9) (Fin 6)) (n : ℕ) :
    haveI : Fact (Nat.Prime 12289) := ⟨by norm_num⟩
    ∃ (Ps : List (Piece (Fin 9) (ZMod 12289))) (n' : ℕ) (ops : _),
      messageFromBitstring 14 5 3 cfg [false, true, true, false, false, false, true, false, false, false]
        n = some (Ps, n', ops) ∧ msgWords 5 Ps = [6, 2] := by
  haveI : Fact (Nat.Prime 12289) := ⟨by norm_num⟩
  have hp : 2 ^ (14 - 1) ≤ 12289 := by norm_num
  obtain ⟨⟨Ps, n', ops⟩, h⟩ := Option.isSome_iff_exists.1 ((messageFromBitstring_iff (p := 12289)
    (K := 5) (maxWords := 3) hp (reprBits := 16) (by norm_num) cfg
    [false, true, true, false, false, false, true, false, false, false] n).2
    ⟨by norm_num, by norm_num, by rfl, by decide⟩)
  obtain ⟨hw, -⟩ := messageFromBitstring_spec hp (reprBits := 16) (by norm_num) h
  exact ⟨Ps, n', ops, h, hw.trans (by decide)⟩

end Verif.Commit
