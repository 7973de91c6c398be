import Verif.Region.Consistent
import Verif.Sinsemilla.Props

/-!
# The Sinsemilla chip assigns each cell once
-/

namespace Verif.Region

variable {C S F : Type}

/-- A record that assigns no cell. -/
theorem Consistent.none {ops : List (Op C S F)} (h : ∀ c v, ¬ Assigned ops c v) : Consistent ops :=
  fun c v _ hv _ => (h c v hv).elim

/-- A record of assignments to one column with different rows. -/
theorem Consistent.rows {ops : List (Op C S F)} {α : Type} {l : List α} {cell : α → Cell C} {val : α → F}
    (h : ∀ c v, Assigned ops c v → ∃ a ∈ l, c = cell a ∧ v = val a)
    (hinj : ∀ a ∈ l, ∀ a' ∈ l, cell a = cell a' → a = a') : Consistent ops := by
  intro c v w hv hw
  obtain ⟨a, ha, rfl, rfl⟩ := h c v hv
  obtain ⟨a', ha', e, rfl⟩ := h _ w hw
  rw [hinj a ha a' ha' e]

end Verif.Region

namespace Verif.Sinsemilla

open Verif.Region Verif.Ecc Verif.Utilities Verif.RunningSum Verif.Mul

variable {C S : Type}

/-- The columns of the chip. -/
def Config.columns (cfg : Config C S) : List C :=
  [cfg.da.xA, cfg.da.xP, cfg.bits, cfg.da.lambda1, cfg.da.lambda2, cfg.qS2, cfg.fixedYQ]

/-- The cells of the rows from `lo` to `hi`. -/
def area (cfg : Config C S) (reg lo hi : ℕ) (c : Cell C) : Prop :=
  c.reg = reg ∧
    (((c.col = cfg.da.xP ∨ c.col = cfg.da.lambda1 ∨ c.col = cfg.da.lambda2 ∨ c.col = cfg.bits ∨
        c.col = cfg.qS2) ∧ (lo : ℤ) ≤ c.row ∧ c.row < hi) ∨
      (c.col = cfg.da.xA ∧ (lo : ℤ) < c.row ∧ c.row ≤ hi))

/-- The part of the area used by the rows. -/
def areaRows (cfg : Config C S) (reg lo hi : ℕ) (c : Cell C) : Prop :=
  c.reg = reg ∧
    (((c.col = cfg.da.xP ∨ c.col = cfg.da.lambda1 ∨ c.col = cfg.da.lambda2) ∧
        (lo : ℤ) ≤ c.row ∧ c.row < hi) ∨
      (c.col = cfg.da.xA ∧ (lo : ℤ) < c.row ∧ c.row ≤ hi))

theorem rowsOps_consistent {F : Type} [Field F] {cfg : Config C S} (hc : cfg.columns.Nodup)
    {reg : ℕ} (row : ℕ) (s : F × F) (gs : List (F × F)) :
    Consistent (rowsOps cfg reg row s gs) ∧
      Within (rowsOps cfg reg row s gs) (areaRows cfg reg row (row + gs.length)) := by
  simp only [Config.columns, List.nodup_cons, List.mem_cons, List.not_mem_nil, or_false, not_or,
    not_false_eq_true, List.nodup_nil, and_true] at hc
  obtain ⟨⟨d1, d2, d3, d4, d5, d6⟩, ⟨d7, d8, d9, d10, d11⟩, ⟨d12, d13, d14, d15⟩, ⟨d16, d17, d18⟩,
    ⟨d19, d20⟩, d21⟩ := hc
  induction gs generalizing row s with
  | nil => exact ⟨Consistent.nil, Within.nil⟩
  | cons g gs ih =>
    obtain ⟨k1, k2⟩ := ih (row + 1) (next s g)
    have w1 : Within ([.advice ⟨reg, cfg.da.xP, row⟩ g.1,
        .advice ⟨reg, cfg.da.lambda1, row⟩ (rowVals g s.1 s.2).1,
        .advice ⟨reg, cfg.da.lambda2, row⟩ (rowVals g s.1 s.2).2.1,
        .advice ⟨reg, cfg.da.xA, (row + 1 : ℕ)⟩ (rowVals g s.1 s.2).2.2.1] : List (Op C S F))
        (areaRows cfg reg row (row + 1)) := by
      intro c v h
      simp only [Assigned, List.mem_cons, Op.advice.injEq, List.not_mem_nil, or_false, reduceCtorEq] at h
      rcases h with ⟨rfl, -⟩ | ⟨rfl, -⟩ | ⟨rfl, -⟩ | ⟨rfl, -⟩ <;> simp [areaRows]
    have c1 : Consistent ([.advice ⟨reg, cfg.da.xP, row⟩ g.1,
        .advice ⟨reg, cfg.da.lambda1, row⟩ (rowVals g s.1 s.2).1,
        .advice ⟨reg, cfg.da.lambda2, row⟩ (rowVals g s.1 s.2).2.1,
        .advice ⟨reg, cfg.da.xA, (row + 1 : ℕ)⟩ (rowVals g s.1 s.2).2.2.1] : List (Op C S F)) := by
      intro c v w h h'
      simp only [Assigned, List.mem_cons, Op.advice.injEq, List.not_mem_nil, or_false, reduceCtorEq] at h h'
      rcases h with ⟨rfl, rfl⟩ | ⟨rfl, rfl⟩ | ⟨rfl, rfl⟩ | ⟨rfl, rfl⟩ <;>
      · simp only [Cell.mk.injEq, true_and, d1, d3, d4, d8, d9, d16, Ne.symm d1, Ne.symm d3, Ne.symm d4,
          Ne.symm d8, Ne.symm d9, Ne.symm d16, false_and, and_false, or_false, false_or] at h'
        exact h'.symm
    refine ⟨c1.append k1 w1 k2 ?_, ?_⟩
    · rintro c ⟨-, h⟩ ⟨-, h'⟩
      push_cast at h h'
      rcases h with ⟨h, h1, h2⟩ | ⟨h, h1, h2⟩ <;> rcases h' with ⟨h', h1', h2'⟩ | ⟨h', h1', h2'⟩
      · omega
      · rw [h'] at h
        rcases h with h | h | h
        · exact d1 h
        · exact d3 h
        · exact d4 h
      · rw [h] at h'
        rcases h' with h' | h' | h'
        · exact d1 h'
        · exact d3 h'
        · exact d4 h'
      · omega
    · refine (w1.append k2).mono ?_
      rintro c (⟨h, h'⟩ | ⟨h, h'⟩) <;> refine ⟨h, ?_⟩ <;> push_cast [List.length_cons] at h' ⊢ <;>
        rcases h' with ⟨h', h1, h2⟩ | ⟨h', h1, h2⟩
      · exact .inl ⟨h', by omega, by omega⟩
      · exact .inr ⟨h', by omega, by omega⟩
      · exact .inl ⟨h', by omega, by omega⟩
      · exact .inr ⟨h', by omega, by omega⟩

variable {p : ℕ} [Fact p.Prime] {b : ZMod p}

theorem pieceOps_consistent {reprBits K : ℕ} {gens : ℕ → ZMod p × ZMod p} {cfg : Config C S}
    (hc : cfg.columns.Nodup) {reg : ℕ} (offset : ℕ) {P : Piece C (ZMod p)} (hok : PieceOk reprBits K P)
    (s : ZMod p × ZMod p) (final : Bool) :
    Consistent (pieceOps reprBits K gens cfg reg offset P s final) ∧
      Within (pieceOps reprBits K gens cfg reg offset P s final)
        (area cfg reg offset (offset + P.numWords)) := by
  obtain ⟨k1, k2⟩ := rowsOps_consistent hc (reg := reg) offset s (pieceGens reprBits K gens P)
  have hgl : (pieceGens reprBits K gens P).length = P.numWords := by simp [pieceGens, hok.2.2]
  rw [hgl] at k2
  simp only [Config.columns, List.nodup_cons, List.mem_cons, List.not_mem_nil, or_false, not_or,
    not_false_eq_true, List.nodup_nil, and_true] at hc
  obtain ⟨⟨d1, d2, d3, d4, d5, d6⟩, ⟨d7, d8, d9, d10, d11⟩, ⟨d12, d13, d14, d15⟩, ⟨d16, d17, d18⟩,
    ⟨d19, d20⟩, d21⟩ := hc
  have hN := hok.1
  -- the fixed column
  have hf : ∀ c v, Assigned (((List.range P.numWords).map fun i =>
        (.enable cfg.qS1 reg ((offset + i : ℕ) : ℤ) : Op C S (ZMod p))) ++
      ((List.range (P.numWords - 1)).map fun i => .fixed ⟨reg, cfg.qS2, ((offset + i : ℕ) : ℤ)⟩ 1) ++
      [.fixed ⟨reg, cfg.qS2, ((offset + P.numWords - 1 : ℕ) : ℤ)⟩ (if final then 2 else 0)]) c v →
      ∃ i ∈ List.range P.numWords, c = ⟨reg, cfg.qS2, ((offset + i : ℕ) : ℤ)⟩ ∧
        v = if i = P.numWords - 1 then (if final then 2 else 0) else 1 := by
    intro c v h
    simp only [Assigned, List.mem_append, List.mem_map, List.mem_range, List.mem_cons,
      List.not_mem_nil, or_false, reduceCtorEq, and_false, exists_false, false_or,
      Op.fixed.injEq] at h
    rcases h with ⟨i, hi, rfl, rfl⟩ | ⟨rfl, rfl⟩
    · exact ⟨i, by simp; omega, rfl, by rw [if_neg (by omega)]⟩
    · exact ⟨P.numWords - 1, by simp; omega, by congr 2; omega, by simp⟩
  -- the running sum
  have hlen := pieceZs_length (cfg := cfg) (reg := reg) (offset := offset) hok
  have hb : ∀ c v, Assigned ([.advice ⟨reg, cfg.bits, offset⟩ P.cell.value,
      .equal ⟨reg, cfg.bits, offset⟩ P.cell.cell] ++
      ((pieceZs reprBits K cfg reg offset P).tail.map fun c =>
        (.advice c.cell c.value : Op C S (ZMod p)))) c v →
      ∃ i ∈ List.range P.numWords, c = ⟨reg, cfg.bits, ((offset + i : ℕ) : ℤ)⟩ ∧
        v = ((pieceZs reprBits K cfg reg offset P)[i]?.map (·.value)).getD 0 := by
    intro c v h
    simp only [Assigned, List.mem_append, List.mem_map, List.mem_cons, List.not_mem_nil, or_false,
      reduceCtorEq, and_false, exists_false, or_false, Op.advice.injEq, false_or] at h
    rcases h with ⟨rfl, rfl⟩ | ⟨x, hx, rfl, rfl⟩
    · exact ⟨0, by simp; omega, by simp, by simp [pieceZs]⟩
    · obtain ⟨i, hi, rfl⟩ := List.getElem_of_mem hx
      rw [List.length_tail, hlen] at hi
      refine ⟨i + 1, by simp; omega, ?_, ?_⟩
      · rw [List.getElem_tail, pieceZs_cell hok]
      · rw [List.getElem?_eq_getElem (by omega)]
        simp
  have cf := Consistent.rows hf (by
    intro a _ a' _ e
    simp only [Cell.mk.injEq, true_and] at e
    omega)
  have cb := Consistent.rows hb (by
    intro a _ a' _ e
    simp only [Cell.mk.injEq, true_and] at e
    omega)
  have wf := show Within _ (fun c : Cell C => c.reg = reg ∧ c.col = cfg.qS2 ∧ (offset : ℤ) ≤ c.row ∧
      c.row < (offset + P.numWords : ℕ)) from fun c v h => by
    obtain ⟨i, hi, rfl, -⟩ := hf c v h
    rw [List.mem_range] at hi
    refine ⟨rfl, rfl, ?_, ?_⟩ <;> push_cast <;> omega
  have wb := show Within _ (fun c : Cell C => c.reg = reg ∧ c.col = cfg.bits ∧ (offset : ℤ) ≤ c.row ∧
      c.row < (offset + P.numWords : ℕ)) from fun c v h => by
    obtain ⟨i, hi, rfl, -⟩ := hb c v h
    rw [List.mem_range] at hi
    refine ⟨rfl, rfl, ?_, ?_⟩ <;> push_cast <;> omega
  have e : pieceOps reprBits K gens cfg reg offset P s final
      = (((List.range P.numWords).map fun i =>
        (.enable cfg.qS1 reg ((offset + i : ℕ) : ℤ) : Op C S (ZMod p))) ++
      ((List.range (P.numWords - 1)).map fun i => .fixed ⟨reg, cfg.qS2, ((offset + i : ℕ) : ℤ)⟩ 1) ++
      [.fixed ⟨reg, cfg.qS2, ((offset + P.numWords - 1 : ℕ) : ℤ)⟩ (if final then 2 else 0)]) ++
      (([.advice ⟨reg, cfg.bits, offset⟩ P.cell.value,
      .equal ⟨reg, cfg.bits, offset⟩ P.cell.cell] ++
      ((pieceZs reprBits K cfg reg offset P).tail.map fun c =>
        (.advice c.cell c.value : Op C S (ZMod p)))) ++
      rowsOps cfg reg offset s (pieceGens reprBits K gens P)) := by
    unfold pieceOps
    simp only [List.append_assoc, List.cons_append, List.nil_append]
  rw [e]
  have c2 := cb.append k1 wb k2 (by
    rintro c ⟨-, h, -⟩ ⟨-, (⟨h', -⟩ | ⟨h', -⟩)⟩
    · rw [h] at h'
      rcases h' with h' | h' | h'
      · exact d7 h'.symm
      · exact d12 h'
      · exact d13 h'
    · exact d2 (h'.symm.trans h))
  refine ⟨cf.append c2 wf (wb.append k2) ?_, (wf.append (wb.append k2)).mono ?_⟩
  · rintro c ⟨-, h, -⟩ (⟨-, h', -⟩ | ⟨-, (⟨h', -⟩ | ⟨h', -⟩)⟩)
    · exact d14 (h'.symm.trans h)
    · rw [h] at h'
      rcases h' with h' | h' | h'
      · exact d10 h'.symm
      · exact d17 h'.symm
      · exact d19 h'.symm
    · exact d5 (h'.symm.trans h)
  · rintro c (⟨h, h1, h2⟩ | ⟨h, h1, h2⟩ | ⟨h, (⟨h1, h2⟩ | ⟨h1, h2⟩)⟩)
    · exact ⟨h, .inl ⟨by simp [h1], h2⟩⟩
    · exact ⟨h, .inl ⟨by simp [h1], h2⟩⟩
    · exact ⟨h, .inl ⟨by tauto, h2⟩⟩
    · exact ⟨h, .inr ⟨h1, h2⟩⟩

theorem area_disjoint {cfg : Config C S} (hc : cfg.columns.Nodup) {reg lo mid hi : ℕ} {c : Cell C}
    (h : area cfg reg lo mid c) (h' : area cfg reg mid hi c) : False := by
  simp only [Config.columns, List.nodup_cons, List.mem_cons, List.not_mem_nil, or_false, not_or,
    not_false_eq_true, List.nodup_nil, and_true] at hc
  obtain ⟨⟨d1, d2, d3, d4, d5, d6⟩, -⟩ := hc
  obtain ⟨-, h⟩ := h
  obtain ⟨-, h'⟩ := h'
  rcases h with ⟨h, h1, h2⟩ | ⟨h, h1, h2⟩ <;> rcases h' with ⟨h', h1', h2'⟩ | ⟨h', h1', h2'⟩
  · omega
  · rw [h'] at h; tauto
  · rw [h] at h'; tauto
  · omega

theorem area_mono {cfg : Config C S} {reg lo lo' hi hi' : ℕ} (h1 : lo' ≤ lo) (h2 : hi ≤ hi')
    (c : Cell C) (h : area cfg reg lo hi c) : area cfg reg lo' hi' c := by
  obtain ⟨e, h⟩ := h
  refine ⟨e, ?_⟩
  rcases h with ⟨h, k1, k2⟩ | ⟨h, k1, k2⟩
  · exact .inl ⟨h, by omega, by omega⟩
  · exact .inr ⟨h, by omega, by omega⟩

theorem piecesOps_consistent {reprBits K : ℕ} {gens : ℕ → ZMod p × ZMod p} {cfg : Config C S}
    (hc : cfg.columns.Nodup) {reg : ℕ} (offset : ℕ) {message : List (Piece C (ZMod p))}
    (hok : ∀ P ∈ message, PieceOk reprBits K P) (s : ZMod p × ZMod p) :
    Consistent (piecesOps reprBits K gens cfg reg offset message s) ∧
      Within (piecesOps reprBits K gens cfg reg offset message s)
        (area cfg reg offset (offset + rowsOf message)) := by
  induction message generalizing offset s with
  | nil => exact ⟨Consistent.nil, Within.nil⟩
  | cons P rest ih =>
    obtain ⟨k1, k2⟩ := pieceOps_consistent (gens := gens) (reg := reg) hc offset (hok P (by simp)) s rest.isEmpty
    obtain ⟨k3, k4⟩ := ih (offset + P.numWords) (fun Q hQ => hok Q (by simp [hQ]))
      ((pieceGens reprBits K gens P).foldl next s)
    have e : offset + P.numWords + rowsOf rest = offset + rowsOf (P :: rest) := by
      simp [rowsOf]; omega
    rw [e] at k4
    refine ⟨k1.append k3 k2 k4 fun c h h' => area_disjoint hc h h', (k2.append k4).mono ?_⟩
    rintro c (h | h)
    · exact area_mono le_rfl (by omega) c h
    · exact area_mono (by omega) le_rfl c h

theorem hashOps_consistent {reprBits K : ℕ} {gens : ℕ → ZMod p × ZMod p} {cfg : Config C S}
    (hc : cfg.columns.Nodup) {reg : ℕ} (offset : ℕ) {message : List (Piece C (ZMod p))}
    (hok : ∀ P ∈ message, PieceOk reprBits K P) (s : ZMod p × ZMod p) :
    Consistent (hashOps reprBits K gens cfg reg offset message s) ∧
      Within (hashOps reprBits K gens cfg reg offset message s)
        (area cfg reg offset (offset + rowsOf message + 1)) := by
  obtain ⟨k1, k2⟩ := piecesOps_consistent (gens := gens) (reg := reg) hc offset hok s
  have hc' := hc
  simp only [Config.columns, List.nodup_cons, List.mem_cons, List.not_mem_nil, or_false, not_or,
    not_false_eq_true, List.nodup_nil, and_true] at hc'
  obtain ⟨⟨d1, d2, d3, d4, d5, d6⟩, ⟨d7, d8, d9, d10, d11⟩, ⟨d12, d13, d14, d15⟩, ⟨d16, d17, d18⟩,
    ⟨d19, d20⟩, d21⟩ := hc'
  have w : Within ([.advice ⟨reg, cfg.da.lambda1, (offset + rowsOf message : ℕ)⟩
      ((allGens reprBits K gens message).foldl next s).2,
      .advice ⟨reg, cfg.da.lambda2, (offset + rowsOf message : ℕ)⟩ 0,
      .advice ⟨reg, cfg.da.xP, (offset + rowsOf message : ℕ)⟩ 0] : List (Op C S (ZMod p)))
      (area cfg reg (offset + rowsOf message) (offset + rowsOf message + 1)) := by
    intro c v h
    simp only [Assigned, List.mem_cons, Op.advice.injEq, List.not_mem_nil, or_false, reduceCtorEq] at h
    rcases h with ⟨rfl, -⟩ | ⟨rfl, -⟩ | ⟨rfl, -⟩ <;> simp [area]
  have c1 : Consistent ([.advice ⟨reg, cfg.da.lambda1, (offset + rowsOf message : ℕ)⟩
      ((allGens reprBits K gens message).foldl next s).2,
      .advice ⟨reg, cfg.da.lambda2, (offset + rowsOf message : ℕ)⟩ 0,
      .advice ⟨reg, cfg.da.xP, (offset + rowsOf message : ℕ)⟩ 0] : List (Op C S (ZMod p))) := by
    intro c v w h h'
    simp only [Assigned, List.mem_cons, Op.advice.injEq, List.not_mem_nil, or_false, reduceCtorEq] at h h'
    rcases h with ⟨rfl, rfl⟩ | ⟨rfl, rfl⟩ | ⟨rfl, rfl⟩ <;>
    · simp only [Cell.mk.injEq, true_and, d8, d9, d16, Ne.symm d8, Ne.symm d9, Ne.symm d16,
        false_and, and_false, or_false, false_or] at h'
      exact h'.symm
  refine ⟨k1.append c1 k2 w fun c h h' => area_disjoint hc h h', (k2.append w).mono ?_⟩
  rintro c (h | h)
  · exact area_mono le_rfl (by omega) c h
  · exact area_mono (by omega) le_rfl c h

/-- `hash_to_point` assigns no cell twice with different values. -/
theorem hashToPoint_consistent {reprBits K : ℕ} {gens : ℕ → ZMod p × ZMod p} {cfg : Config C S}
    (hc : cfg.columns.Nodup) {Q : Pt b} {message : List (Piece C (ZMod p))} {n n' : ℕ} {out}
    {ops : List (Op C S (ZMod p))}
    (h : hashToPoint reprBits K gens cfg Q message n = some (out, n', ops)) : Consistent ops := by
  obtain ⟨-, hok, e⟩ := hashToPoint_some h
  cases e
  obtain ⟨k1, k2⟩ := hashOps_consistent (gens := gens) (reg := n) hc (initRow cfg) hok (enc Q)
  simp only [Config.columns, List.nodup_cons, List.mem_cons, List.not_mem_nil, or_false, not_or,
    not_false_eq_true, List.nodup_nil, and_true] at hc
  obtain ⟨⟨d1, d2, d3, d4, d5, d6⟩, ⟨d7, d8, d9, d10, d11⟩, ⟨d12, d13, d14, d15⟩, ⟨d16, d17, d18⟩,
    ⟨d19, d20⟩, d21⟩ := hc
  have key : Consistent (publicOps cfg n Q) ∧ Within (publicOps cfg n Q) (fun c =>
      (c.col = cfg.fixedYQ) ∨ (c.col = cfg.da.xP ∧ c.row < initRow cfg) ∨
        (c.col = cfg.da.xA ∧ c.row ≤ initRow cfg)) := by
    unfold publicOps initRow
    cases cfg.allowPrivate
    · constructor
      · intro c v w h h'
        simp [Assigned] at h h'
        rcases h with ⟨rfl, rfl⟩ | ⟨rfl, rfl⟩ <;> simp [d6, Ne.symm d6] at h' <;> exact h'.symm
      · intro c v h
        simp [Assigned] at h
        rcases h with ⟨rfl, rfl⟩ | ⟨rfl, rfl⟩ <;> simp
    · constructor
      · intro c v w h h'
        simp [Assigned] at h h'
        rcases h with ⟨rfl, rfl⟩ | ⟨rfl, rfl⟩ <;> simp at h' <;> exact h'.symm
      · intro c v h
        simp [Assigned] at h
        rcases h with ⟨rfl, rfl⟩ | ⟨rfl, rfl⟩ <;> simp
  refine key.1.append k1 key.2 k2 ?_
  rintro c h ⟨-, h'⟩
  rcases h with h | ⟨h, h1⟩ | ⟨h, h1⟩ <;> rw [h] at h' <;> rcases h' with ⟨h', h2, h3⟩ | ⟨h', h2, h3⟩
  · rcases h' with h' | h' | h' | h' | h'
    · exact d11 h'.symm
    · exact d18 h'.symm
    · exact d20 h'.symm
    · exact d15 h'.symm
    · exact d21 h'.symm
  · exact d6 h'.symm
  · omega
  · exact d1 h'.symm
  · rcases h' with h' | h' | h' | h' | h'
    · exact d1 h'
    · exact d3 h'
    · exact d4 h'
    · exact d2 h'
    · exact d5 h'
  · omega

end Verif.Sinsemilla
