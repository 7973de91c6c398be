import Verif.Merkle.Sound
import Verif.Mul.Honest
import Verif.Sinsemilla.Layout

/-!
# Completeness of the Merkle chip
-/

namespace Verif.Region

variable {C S F α β : Type}

/-- A program that enables selectors with a property only. -/
def Only (P : S → Prop) (f : M C S F α) : Prop :=
  ∀ n a n' ops, f n = some (a, n', ops) → ∀ s reg row, .enable s reg row ∈ ops → P s

theorem Only.bind {P : S → Prop} {f : M C S F α} {g : α → M C S F β} (hf : Only P f)
    (hg : ∀ a, Only P (g a)) : Only P (f >>= g) := by
  intro n b n' ops h s reg row hm
  obtain ⟨a, m, o, o', h1, h2, rfl⟩ := bind_some h
  rcases List.mem_append.1 hm with hm | hm
  · exact hf _ _ _ _ h1 s reg row hm
  · exact hg a _ _ _ _ h2 s reg row hm

theorem Only.unwrap {P : S → Prop} {x : Option α} : Only P (unwrap x : M C S F α) := by
  intro n a n' ops h
  obtain ⟨-, -, rfl⟩ := unwrap_some h
  simp

end Verif.Region

namespace Verif.Merkle

open Verif.Region Verif.Ecc Verif.Utilities Verif.Sinsemilla

variable {C S : Type} {p : ℕ} [Fact p.Prime] {b : ZMod p}

/-- The selectors of the chip itself. -/
def Config.own (cfg : Config C S) : List S := [cfg.qDecompose, cfg.qSwap, cfg.sins.qS1, cfg.sins.qS4]

/-- The selectors of the range check. -/
def rangeSels (cfg : LookupRange.Config C S) : List S :=
  [cfg.qLookup, cfg.qRunning, cfg.qBitshift] ++
    match cfg.variant with | .base => [] | .tagged q4 q5 => [q4, q5]

/-- The columns are different, and the selectors are created one after the other, so they are different
as well. -/
structure Config.Distinct (cfg : Config C S) : Prop where
  cols : cfg.sins.columns.Nodup
  range : cfg.sins.range.Distinct
  own : cfg.own.Nodup
  sep : ∀ s ∈ cfg.own, s ∉ rangeSels cfg.sins.range

/-- The constraints and lookups of a chip hold in the regions from `n` to `n'`. -/
structure Ok (gen : ℕ → Pt b) (cfg : Config C S) (G : Grid C (ZMod p)) (ops : List (Op C S (ZMod p)))
    (n n' : ℕ) : Prop where
  sat : Sat (gates cfg) G ops
  hash : ∀ reg, n ≤ reg → reg < n' →
    SatLookup (Sinsemilla.lookup 10 (fun w => enc (gen w)) cfg.sins) G ops reg
  range : ∀ reg, n ≤ reg → reg < n' → SatLookup (LookupRange.lookup 10 cfg.sins.range) G ops reg

theorem Ok.nil (gen : ℕ → Pt b) (cfg : Config C S) (G : Grid C (ZMod p)) (n : ℕ) :
    Ok gen cfg G [] n n :=
  ⟨Sat.nil _ _, fun _ _ _ => by omega, fun _ _ _ => by omega⟩

theorem Ok.bind {α β : Type} {gen : ℕ → Pt b} {cfg : Config C S} {G : Grid C (ZMod p)}
    {f : M C S (ZMod p) α} {g : M C S (ZMod p) β} {n m n' : ℕ} {a : α} {c : β}
    {o o' : List (Op C S (ZMod p))} (hf : Local f) (hg : Local g) (h1 : f n = some (a, m, o))
    (h2 : g m = some (c, n', o')) (k1 : Ok gen cfg G o n m) (k2 : Ok gen cfg G o' m n') :
    Ok gen cfg G (o ++ o') n n' := by
  obtain ⟨q1, q2⟩ := PartOf.bind hf hg h1 h2 (PartOf.self _ _ _)
  refine ⟨k1.sat.append k2.sat, fun reg r1 r2 => ?_, fun reg r1 r2 => ?_⟩
  · rcases Nat.lt_or_ge reg m with h | h
    · exact (q1.lookup r1 h _ G).2 (k1.hash reg r1 h)
    · exact (q2.lookup h r2 _ G).2 (k2.hash reg h r2)
  · rcases Nat.lt_or_ge reg m with h | h
    · exact (q1.lookup r1 h _ G).2 (k1.range reg r1 h)
    · exact (q2.lookup h r2 _ G).2 (k2.range reg h r2)

/-- A record without the selectors of the lookups. -/
theorem Ok.of_sat {gen : ℕ → Pt b} {cfg : Config C S} {G : Grid C (ZMod p)}
    {ops : List (Op C S (ZMod p))} {n n' : ℕ} (h : Sat (gates cfg) G ops)
    (h1 : ∀ reg row, .enable cfg.sins.qS1 reg row ∉ ops)
    (h2 : ∀ reg row, .enable cfg.sins.range.qLookup reg row ∉ ops) : Ok gen cfg G ops n n' :=
  ⟨h, fun reg _ _ row => Sinsemilla.lookup_off _ _ _ (by norm_num)
      (LookupRange.selectors_off (h1 reg row)),
    fun reg _ _ row => LookupRange.lookup_off _ _ (LookupRange.selectors_off (h2 reg row))⟩

theorem Ok.advice {gen : ℕ → Pt b} {cfg : Config C S} {G : Grid C (ZMod p)} (c : Cell C) (v : ZMod p)
    {n n' : ℕ} : Ok gen cfg G [.advice c v] n n' :=
  Ok.of_sat ⟨by simp, by simp, by simp, by simp⟩ (by simp) (by simp)

/-- The gate of a selector of the chip. -/
theorem Config.Distinct.gate {cfg : Config C S} (hd : cfg.Distinct) {g}
    (hg : g ∈ (gates cfg : Gates C S (ZMod p))) :
    (g.1 = cfg.qDecompose → g = (cfg.qDecompose, decompGate cfg)) ∧
    (g.1 = cfg.qSwap → g ∈ (CondSwap.gates cfg.condSwap : Gates C S (ZMod p))) ∧
    (g.1 = cfg.sins.qS1 ∨ g.1 = cfg.sins.qS4 → g ∈ (Sinsemilla.gates cfg.sins : Gates C S (ZMod p))) ∧
    (g.1 ∈ rangeSels cfg.sins.range →
      g ∈ (LookupRange.gates 10 cfg.sins.range : Gates C S (ZMod p))) := by
  have hown := hd.own
  have hsep := hd.sep
  simp only [Config.own, List.nodup_cons, List.mem_cons, List.not_mem_nil, or_false, not_or,
    not_false_eq_true, List.nodup_nil, and_true, forall_eq_or_imp, forall_eq] at hown hsep
  obtain ⟨⟨d1, d2, d3⟩, ⟨d4, d5⟩, d6⟩ := hown
  obtain ⟨s1, s2, s3, s4⟩ := hsep
  have hb : cfg.sins.range.qBitshift ∈ rangeSels cfg.sins.range := by simp [rangeSels]
  have ne : ∀ s, s ∉ rangeSels cfg.sins.range → cfg.sins.range.qBitshift ≠ s :=
    fun s h e => h (e ▸ hb)
  simp only [gates, CondSwap.gates, Sinsemilla.gates, LookupRange.gates, List.mem_cons,
    List.mem_append, List.not_mem_nil, or_false, Config.condSwap] at hg ⊢
  rcases hg with rfl | (rfl | rfl | rfl) | rfl
  · exact ⟨fun _ => rfl, fun h => absurd h d1, fun h => (h.elim (absurd · d2) (absurd · d3)),
      fun h => absurd h s1⟩
  · exact ⟨fun h => absurd h.symm d1, fun _ => rfl, fun h => (h.elim (absurd · d4) (absurd · d5)),
      fun h => absurd h s2⟩
  · exact ⟨fun h => absurd h.symm d3, fun h => absurd h.symm d5, fun _ => .inl rfl,
      fun h => absurd h s4⟩
  · exact ⟨fun h => absurd h.symm d2, fun h => absurd h.symm d4, fun _ => .inr rfl,
      fun h => absurd h s3⟩
  · exact ⟨fun h => absurd h (ne _ s1), fun h => absurd h (ne _ s2),
      fun h => (h.elim (absurd · (ne _ s3)) (absurd · (ne _ s4))), fun _ => rfl⟩

theorem Config.Distinct.ne {cfg : Config C S} (hd : cfg.Distinct) :
    cfg.sins.qS1 ≠ cfg.sins.qS4 ∧ cfg.sins.qS1 ≠ cfg.qSwap ∧ cfg.sins.qS1 ≠ cfg.qDecompose ∧
    cfg.sins.range.qLookup ≠ cfg.sins.qS1 ∧ cfg.sins.range.qLookup ≠ cfg.sins.qS4 ∧
    cfg.sins.range.qLookup ≠ cfg.qSwap ∧ cfg.sins.range.qLookup ≠ cfg.qDecompose := by
  have hown := hd.own
  have hsep := hd.sep
  simp only [Config.own, List.nodup_cons, List.mem_cons, List.not_mem_nil, or_false, not_or,
    not_false_eq_true, List.nodup_nil, and_true, forall_eq_or_imp, forall_eq] at hown hsep
  obtain ⟨⟨d1, d2, d3⟩, ⟨d4, d5⟩, d6⟩ := hown
  obtain ⟨s1, s2, s3, s4⟩ := hsep
  have hb : cfg.sins.range.qLookup ∈ rangeSels cfg.sins.range := by simp [rangeSels]
  exact ⟨d6, fun h => d4 h.symm, fun h => d2 h.symm, fun h => s3 (h ▸ hb), fun h => s4 (h ▸ hb),
    fun h => s2 (h ▸ hb), fun h => s1 (h ▸ hb)⟩

/-! ## The steps -/

theorem bitrangeOf_run (x : ZMod p) {start stop : ℕ} (h : stop ≤ 255) (hs : start ≤ stop) (n : ℕ) :
    (bitrangeOf x start stop : M C S (ZMod p) _) n
      = some ((((x.val / 2 ^ start % 2 ^ (stop - start) : ℕ) : ZMod p), stop - start), n, []) :=
  bind_of (unwrap_of (bitrangeSubset_eq (by norm_num) x h hs) n) rfl

theorem fromSubpieces_run (cfg : Sinsemilla.Config C S) {subpieces : List (ZMod p × ℕ)} {v : ZMod p}
    {w : ℕ} (h : concat 0 0 subpieces = some (v, 10 * w)) (hw : w * 10 < 255) (n : ℕ) :
    fromSubpieces cfg subpieces n
      = some (⟨⟨⟨n, cfg.witnessPieces, 0⟩, v⟩, w⟩, n + 1, [.advice ⟨n, cfg.witnessPieces, 0⟩ v]) := by
  refine bind_of (ops₁ := []) (unwrap_of h n) ?_
  refine bind_of (ops₁ := []) (assert_of (by omega) n) ?_
  rw [Nat.mul_div_cancel_left _ (by norm_num)]
  exact bind_of (n' := n + 1) (ops₁ := [.advice ⟨n, cfg.witnessPieces, 0⟩ v]) rfl
    (bind_of (ops₁ := []) (assert_of hw _) rfl)

theorem witnessShort_complete (hp : 2 ^ 20 ≤ p) (gen : ℕ → Pt b) {cfg : Config C S}
    (hd : cfg.Distinct) (x : ZMod p) {start stop : ℕ} (h : stop ≤ 255) (hs : start ≤ stop)
    (hlt : stop - start < 10) (n : ℕ) :
    ∃ el ops, witnessShort cfg.sins.range x start stop n = some ((el, stop - start), n + 1, ops) ∧
      el.value = ((x.val / 2 ^ start % 2 ^ (stop - start) : ℕ) : ZMod p) ∧
      (∀ s reg row, .enable s reg row ∈ ops → s ∈ rangeSels cfg.sins.range) ∧ Consistent ops ∧
      ∀ G, Honest G ops → G.at el.cell = el.value ∧ Ok gen cfg G ops n (n + 1) := by
  set v := ((x.val / 2 ^ start % 2 ^ (stop - start) : ℕ) : ZMod p) with hv
  obtain ⟨el, ops, hrun, hval, -, hcomp⟩ := LookupRange.witnessShortCheck_spec hd.range (value := v)
    (s := stop - start) (n := n) (by omega) (K := 10) (by simpa using hp) (by omega)
  obtain ⟨hen, hcons⟩ : (∀ s reg row, .enable s reg row ∈ ops → s ∈ rangeSels cfg.sins.range) ∧
      Consistent ops := by
    have h2 : ((2 ^ (stop - start) : ℕ) : ZMod p) ≠ 0 :=
      LookupRange.two_pow_ne (by omega) _
    unfold LookupRange.witnessShortCheck at hrun
    rw [assert_bind (by omega)] at hrun
    unfold assignRegion at hrun
    obtain ⟨_, _, o1, o2, k1, k2, rfl⟩ := bind_some hrun
    cases k1
    obtain ⟨_, _, o3, o4, k3, k4, rfl⟩ := bind_some k2
    cases k4
    rw [LookupRange.short_run h2] at k3
    cases k3
    refine ⟨fun s reg row hm => ?_, ?_⟩
    · simp only [List.append_nil] at hm
      rcases List.mem_append.1 hm with hm | hm
      · simp at hm
      unfold LookupRange.shortOps at hm
      unfold rangeSels
      dsimp only at hm
      cases hvr : cfg.sins.range.variant with
      | base => rw [hvr] at hm; simp at hm ⊢; tauto
      | tagged q4 q5 =>
        rw [hvr] at hm
        dsimp only at hm
        split_ifs at hm <;> simp at hm ⊢ <;> tauto
    · unfold LookupRange.shortOps
      intro c v w h h'
      dsimp only at h h'
      cases hvr : cfg.sins.range.variant with
      | base =>
        rw [hvr] at h h'
        simp [Assigned] at h h'
        rcases h with ⟨rfl, rfl⟩ | ⟨rfl, rfl⟩ | ⟨rfl, rfl⟩ <;> simp at h' <;> exact h'.symm
      | tagged q4 q5 =>
        rw [hvr] at h h'
        dsimp only at h h'
        split_ifs at h h' <;> simp [Assigned] at h h'
        · exact h.2.trans h'.2.symm
        · exact h.2.trans h'.2.symm
        · rcases h with ⟨rfl, rfl⟩ | ⟨rfl, rfl⟩ | ⟨rfl, rfl⟩ <;> simp at h' <;> exact h'.symm
  refine ⟨el, ops, ?_, hval, hen, hcons, fun G hG => ?_⟩
  · refine bind_of (ops₁ := []) (assert_of hlt n) ?_
    refine bind_of (ops₁ := []) (unwrap_of (bitrangeSubset_eq (by norm_num) x h hs) n) ?_
    have := bind_of (f := fun el => (pure (el, stop - start) : M C S (ZMod p) _)) hrun
      (rfl : _ = some (_, _, []))
    rw [List.append_nil] at this
    exact this
  · obtain ⟨e, hiff⟩ := hcomp G hG
    have hlt : v.val < 2 ^ (stop - start) := by
      have h1 : x.val / 2 ^ start % 2 ^ (stop - start) < 2 ^ (stop - start) :=
        Nat.mod_lt _ (by positivity)
      rw [hv, ZMod.val_natCast]
      exact lt_of_le_of_lt (Nat.mod_le _ _) h1
    obtain ⟨k1, k2⟩ := hiff.2 hlt
    refine ⟨e.trans hval.symm, k1.widen fun g hg reg row hm => (hd.gate hg).2.2.2 (hen _ _ _ hm),
      fun reg r1 r2 row => Sinsemilla.lookup_off _ _ _ (by norm_num)
        (LookupRange.selectors_off fun hm => hd.sep _ (by simp [Config.own]) (hen _ _ _ hm)),
      fun reg r1 r2 => ?_⟩
    obtain rfl : reg = n := by omega
    exact k2

/-- The cell `z_1` of a piece. -/
theorem zs_one {reprBits K : ℕ} (hK : K ≠ 0) (hp : p ≠ 2) (gens : ℕ → ZMod p × ZMod p)
    (cfg : Sinsemilla.Config C S) (reg offset : ℕ) {P : Piece C (ZMod p)} (hP : Fits reprBits K P)
    (h2 : 2 ≤ P.numWords) (s : ZMod p × ZMod p) (final : Bool) :
    ∃ z, (pieceZs reprBits K cfg reg offset P)[1]? = some z ∧
      z.value = ((P.cell.value.val / 2 ^ K : ℕ) : ZMod p) ∧
      .advice z.cell z.value ∈ pieceOps reprBits K gens cfg reg offset P s final := by
  have hlen := pieceZs_length (cfg := cfg) (reg := reg) (offset := offset) (hP.ok hK)
  have hw : (words reprBits K P.cell.value P.numWords).dropLast.map (fun (w : ℕ) => (w : ZMod p))
      = (List.range (P.numWords - 1)).map fun i =>
        ((P.cell.value.val / (2 ^ K) ^ i % 2 ^ K : ℕ) : ZMod p) := by
    rw [words_eq hK hP.2.1]
    unfold digitsOf
    rw [← List.map_dropLast, List.map_map]
    have : (List.range P.numWords).dropLast = List.range (P.numWords - 1) := by
      obtain ⟨m, hm⟩ : ∃ m, P.numWords = m + 1 := ⟨P.numWords - 1, by omega⟩
      rw [hm, List.range_succ, List.dropLast_concat]
      rfl
    rw [this]
    rfl
  refine ⟨(pieceZs reprBits K cfg reg offset P)[1]'(by omega),
    List.getElem?_eq_getElem _, ?_, ?_⟩
  · have := sumCells_digits (F := ZMod p) reg cfg.bits (B := 2 ^ K) (LookupRange.two_pow_ne hp K)
      (P.numWords - 1) offset P.cell.value.val 0 (by rw [RunningSum.sumCells_length]; simp; omega)
    rw [zero_add, pow_one] at this
    rw [← this]
    unfold pieceZs
    rw [List.getElem_cons_succ]
    congr 1
    congr 1
    rw [hw, ZMod.natCast_zmod_val]
  · have hm : (pieceZs reprBits K cfg reg offset P)[1]'(by omega)
        ∈ (pieceZs reprBits K cfg reg offset P).tail := by
      have : (pieceZs reprBits K cfg reg offset P)[1]'(by omega)
          = (pieceZs reprBits K cfg reg offset P).tail[0]'(by simp; omega) := by simp
      rw [this]; exact List.getElem_mem _
    unfold pieceOps
    exact List.mem_append_left _ (List.mem_append_right _ (List.mem_map.2 ⟨_, hm, rfl⟩))

theorem hashOps_enables {reprBits K : ℕ} {gens : ℕ → ZMod p × ZMod p} {cfg : Sinsemilla.Config C S}
    {n : ℕ} {Q : Pt b} {message : List (Piece C (ZMod p))} {s : S} {reg : ℕ} {row : ℤ}
    (h : .enable s reg row ∈ publicOps cfg n Q ++
      hashOps reprBits K gens cfg n (initRow cfg) message (enc Q)) :
    s = cfg.qS1 ∨ s = cfg.qS4 := by
  rcases List.mem_append.1 h with h | h
  · unfold publicOps at h
    split_ifs at h <;> simp at h <;> exact .inr h.1
  · unfold hashOps at h
    rcases List.mem_append.1 h with h | h
    · rcases pieces_constraints h with ⟨i, -, e⟩ | ⟨c, v, e⟩ | ⟨c, v, e⟩ | ⟨P, -, c, e, -⟩
      · cases e; exact .inl rfl
      · cases e
      · cases e
      · cases e
    · simp at h

/-- A program that stays in its regions and another one after it do not meet. -/
theorem consistent_bind {α β : Type} {f : M C S (ZMod p) α} {g : M C S (ZMod p) β} {n m n' : ℕ}
    {a : α} {c : β} {o o' : List (Op C S (ZMod p))} (hf : Local f) (hg : Local g)
    (h1 : f n = some (a, m, o)) (h2 : g m = some (c, n', o')) (k1 : Consistent o) (k2 : Consistent o') :
    Consistent (o ++ o') := by
  refine k1.append k2 (A := fun x => x.reg < m) (B := fun x => m ≤ x.reg) ?_ ?_ fun x h h' => by omega
  · rintro x v (h | h)
    · exact ((hf _ _ _ _ h1).2 _ h _ rfl).2
    · exact ((hf _ _ _ _ h1).2 _ h _ rfl).2
  · rintro x v (h | h)
    · exact ((hg _ _ _ _ h2).2 _ h _ rfl).1
    · exact ((hg _ _ _ _ h2).2 _ h _ rfl).1

theorem consistent_one (c : Cell C) (v : ZMod p) :
    Consistent ([.advice c v] : List (Op C S (ZMod p))) := by
  intro x u w h h'
  simp [Assigned] at h h'
  exact h.2.trans h'.2.symm

theorem advices_inj {cfg : Config C S} (hd : cfg.Distinct) {i j : Fin 5} :
    cfg.advices i = cfg.advices j ↔ i = j := by
  refine ⟨fun h => ?_, fun h => h ▸ rfl⟩
  have hc := hd.cols
  simp only [Sinsemilla.Config.columns, List.nodup_cons, List.mem_cons, List.not_mem_nil, or_false, not_or,
    not_false_eq_true, List.nodup_nil, and_true] at hc
  obtain ⟨⟨d1, d2, d3, d4, d5, d6⟩, ⟨d7, d8, d9, d10, d11⟩, ⟨d12, d13, d14, d15⟩, ⟨d16, d17, d18⟩,
    ⟨d19, d20⟩, d21⟩ := hc
  fin_cases i <;> fin_cases j <;> first | rfl | (simp [Config.advices] at h; exact absurd h ‹_›) |
    (simp [Config.advices] at h; exact absurd h.symm ‹_›)

theorem decomp_consistent {cfg : Config C S} (hd : cfg.Distinct) (l : ℕ)
    (a b' c : Piece C (ZMod p)) (left right z1a z1b b1 b2 : ACell C (ZMod p)) (n : ℕ) :
    Consistent (decompOps cfg l a b' c left right z1a z1b b1 b2 n) := by
  refine Consistent.rows (l := [((4 : Fin 5), (1 : ℤ), (l : ZMod p)), (0, 0, a.cell.value),
    (1, 0, b'.cell.value), (2, 0, c.cell.value), (3, 0, left.value), (4, 0, right.value),
    (0, 1, z1a.value), (1, 1, z1b.value), (2, 1, b1.value), (3, 1, b2.value)])
    (cell := fun x => ⟨n, cfg.advices x.1, x.2.1⟩) (val := fun x => x.2.2) ?_ ?_
  · intro x v h
    simp only [Assigned, decompOps, List.cons_append, List.nil_append, List.mem_cons, reduceCtorEq,
      Op.advice.injEq, List.not_mem_nil, or_false, false_or] at h
    rcases h with ⟨rfl, rfl⟩ | ⟨rfl, rfl⟩ | ⟨rfl, rfl⟩ | ⟨rfl, rfl⟩ | ⟨rfl, rfl⟩ | ⟨rfl, rfl⟩ |
      ⟨rfl, rfl⟩ | ⟨rfl, rfl⟩ | ⟨rfl, rfl⟩ | ⟨rfl, rfl⟩ <;>
    simp only [List.mem_cons, exists_eq_or_imp, List.not_mem_nil, false_and, exists_false, or_false,
      Cell.mk.injEq, true_and, advices_inj hd] <;> simp
  · simp only [List.mem_cons, List.not_mem_nil, or_false, forall_eq_or_imp, forall_eq,
      Cell.mk.injEq, true_and, advices_inj hd]
    simp

theorem decomp_complete {gen : ℕ → Pt b} {cfg : Config C S} (hd : cfg.Distinct) {l : ℕ}
    {a b' c : Piece C (ZMod p)} {left right z1a z1b b1 b2 : ACell C (ZMod p)} {n : ℕ}
    {G : Grid C (ZMod p)} (hon : Honest G (decompOps cfg l a b' c left right z1a z1b b1 b2 n))
    (hcells : ∀ x ∈ [a.cell, b'.cell, c.cell, left, right, z1a, z1b, b1, b2], G.at x.cell = x.value)
    (h1 : a.cell.value = l + 2 ^ 10 * z1a.value)
    (h2 : left.value = z1a.value
      + 2 ^ 240 * (b'.cell.value - 2 ^ 10 * z1b.value + 2 ^ 10 * b1.value))
    (h3 : right.value = b2.value + 2 ^ 5 * c.cell.value)
    (h4 : z1b.value = b1.value + 2 ^ 5 * b2.value) :
    Ok gen cfg G (decompOps cfg l a b' c left right z1a z1b b1 b2 n) n (n + 1) := by
  simp only [List.mem_cons, List.not_mem_nil, or_false, forall_eq_or_imp, forall_eq] at hcells
  obtain ⟨k1, k2, k3, k4, k5, k6, k7, k8, k9⟩ := hcells
  have ha : ∀ v i row, Op.advice ⟨n, cfg.advices i, row⟩ v ∈
      decompOps cfg l a b' c left right z1a z1b b1 b2 n → G n (cfg.advices i) row = v :=
    fun x i row h => hon.1 _ _ h
  have e0 := ha (l : ZMod p) 4 1 (by simp [decompOps])
  have e1 := ha a.cell.value 0 0 (by simp [decompOps])
  have e2 := ha b'.cell.value 1 0 (by simp [decompOps])
  have e3 := ha c.cell.value 2 0 (by simp [decompOps])
  have e4 := ha left.value 3 0 (by simp [decompOps])
  have e5 := ha right.value 4 0 (by simp [decompOps])
  have e6 := ha z1a.value 0 1 (by simp [decompOps])
  have e7 := ha z1b.value 1 1 (by simp [decompOps])
  have e8 := ha b1.value 2 1 (by simp [decompOps])
  have e9 := ha b2.value 3 1 (by simp [decompOps])
  have hne := hd.ne
  refine Ok.of_sat ⟨?_, ?_, ?_, ?_⟩ ?_ ?_
  · intro g hg reg row hm
    simp [decompOps] at hm
    obtain ⟨e, rfl, rfl⟩ := hm
    obtain rfl := (hd.gate hg).1 e
    have e240 : (2 : ZMod p) ^ 240 = (2 ^ 120) ^ 2 := by rw [← pow_mul]
    rw [e240] at h2
    simp only [decompGate, Grid.query, zero_add, List.mem_cons, List.not_mem_nil, or_false,
      forall_eq_or_imp, forall_eq, e0, e1, e2, e3, e4, e5, e6, e7, e8, e9]
    refine ⟨by linear_combination h1, by linear_combination -h2, by linear_combination -h3,
      by linear_combination h4⟩
  · intro x y hm
    simp [decompOps] at hm
    rcases hm with ⟨rfl, rfl⟩ | ⟨rfl, rfl⟩ | ⟨rfl, rfl⟩ | ⟨rfl, rfl⟩ | ⟨rfl, rfl⟩ | ⟨rfl, rfl⟩ |
      ⟨rfl, rfl⟩ | ⟨rfl, rfl⟩ | ⟨rfl, rfl⟩
    · exact e1.trans k1.symm
    · exact e2.trans k2.symm
    · exact e3.trans k3.symm
    · exact e4.trans k4.symm
    · exact e5.trans k5.symm
    · exact e6.trans k6.symm
    · exact e7.trans k7.symm
    · exact e8.trans k8.symm
    · exact e9.trans k9.symm
  · intro x v hm
    simp [decompOps] at hm
    obtain ⟨rfl, rfl⟩ := hm
    exact e0
  · intro x v hm
    simp [decompOps] at hm
  · intro reg row hm
    simp [decompOps] at hm
    exact hne.2.2.1 hm.1
  · intro reg row hm
    simp [decompOps] at hm
    exact hne.2.2.2.2.2.2 hm.1

theorem finish_complete (hg : Good b) {gen : ℕ → Pt b} {cfg : Config C S} (hd : cfg.Distinct)
    {Q R : Pt b} (hQ : Q ≠ 0) {l : ℕ} {left right : ACell C (ZMod p)} {pa pb pc : Piece C (ZMod p)}
    (na : pa.numWords = 25) (nb : pb.numWords = 2) (nc : pc.numWords = 25)
    (hfit : ∀ P ∈ [pa, pb, pc], Fits 256 10 P) {b1 b2 : ACell C (ZMod p)}
    (h1 : pa.cell.value = l + 2 ^ 10 * ((pa.cell.value.val / 2 ^ 10 : ℕ) : ZMod p))
    (h2 : left.value = ((pa.cell.value.val / 2 ^ 10 : ℕ) : ZMod p)
      + 2 ^ 240 * (pb.cell.value - 2 ^ 10 * ((pb.cell.value.val / 2 ^ 10 : ℕ) : ZMod p)
        + 2 ^ 10 * b1.value))
    (h3 : right.value = b2.value + 2 ^ 5 * pc.cell.value)
    (h4 : ((pb.cell.value.val / 2 ^ 10 : ℕ) : ZMod p) = b1.value + 2 ^ 5 * b2.value)
    (hspec : specHash gen Q (msgWords 10 [pa, pb, pc]) = some R) (n : ℕ) :
    ∃ out ops, finish (fun w => enc (gen w)) cfg Q l left right pa pb pc b1 b2 n
        = some (out, n + 2, ops) ∧ out.value = (enc R).1 ∧
      (∀ s reg row, .enable s reg row ∈ ops → s ∈ cfg.own) ∧ Consistent ops ∧
      ∀ G, Honest G ops →
        (∀ x ∈ [pa.cell, pb.cell, pc.cell, left, right, b1, b2], G.at x.cell = x.value) →
        Ok gen cfg G ops n (n + 2) ∧ G.at out.cell = out.value := by
  have hp2 : p ≠ 2 := by
    rintro rfl
    exact hg.two CharTwo.two_eq_zero
  obtain ⟨out, zs, ops, hrun, hval, hcomp⟩ := hashToPoint_complete hg (K := 10) (by norm_num)
    hd.ne.1 (message := [pa, pb, pc]) (by simp) hfit hQ hspec n
  obtain ⟨-, -, e⟩ := hashToPoint_some hrun
  simp only [Prod.mk.injEq] at e
  obtain ⟨⟨-, ezs⟩, -, eops⟩ := e
  obtain ⟨za, a1, a2, a3⟩ := zs_one (by norm_num) hp2 (fun w => enc (gen w)) cfg.sins n
    (initRow cfg.sins) (hfit pa (by simp)) (by omega) (enc Q) false
  obtain ⟨zb, c1, c2, c3⟩ := zs_one (by norm_num) hp2 (fun w => enc (gen w)) cfg.sins n
    (initRow cfg.sins + pa.numWords) (hfit pb (by simp)) (by omega)
    ((pieceGens 256 10 (fun w => enc (gen w)) pa).foldl next (enc Q)) false
  have ma : .advice za.cell za.value ∈ ops := by
    rw [eops]
    exact List.mem_append_right _ (List.mem_append_left _ (List.mem_append_left _ a3))
  have mb : .advice zb.cell zb.value ∈ ops := by
    rw [eops]
    exact List.mem_append_right _ (List.mem_append_left _ (List.mem_append_right _
      (List.mem_append_left _ c3)))
  have hen : ∀ s reg row, .enable s reg row ∈ ops → s = cfg.sins.qS1 ∨ s = cfg.sins.qS4 := by
    intro s reg row hm
    rw [eops] at hm
    exact hashOps_enables hm
  refine ⟨out.x, ops ++ decompOps cfg l pa pb pc left right za zb b1 b2 (n + 1), ?_,
    (congrArg Prod.fst hval).symm, ?_, ?_, fun G hG hcells => ?_⟩
  · unfold finish
    refine bind_of (n' := n) (ops₁ := []) (a := [pa, pb, pc]) ?_ ?_
    · exact bind_of (ops₁ := []) (assert_of (by simp [na, nb, nc]) n) rfl
    refine bind_of hrun ?_
    refine bind_of (ops₁ := []) (unwrap_of (a := za) (by rw [ezs]; exact a1) _) ?_
    refine bind_of (ops₁ := []) (unwrap_of (a := zb) (by rw [ezs]; exact c1) _) ?_
    have := bind_of (f := fun _ => (pure out.x : M C S (ZMod p) _))
      (checkDecomposition_run cfg l pa pb pc left right za zb b1 b2 (n + 1))
      (rfl : _ = some (_, _, []))
    rw [List.append_nil] at this
    exact this
  · intro s reg row hm
    rcases List.mem_append.1 hm with hm | hm
    · rcases hen _ _ _ hm with rfl | rfl <;> simp [Config.own]
    · simp [decompOps] at hm
      simp [Config.own, hm.1]
  · exact consistent_bind (hashToPoint_local _ _ _ _ _ _)
      (checkDecomposition_local _ _ _ _ _ _ _ _ _ _ _) hrun
      (checkDecomposition_run cfg l pa pb pc left right za zb b1 b2 (n + 1))
      (hashToPoint_consistent hd.cols hrun) (decomp_consistent hd _ _ _ _ _ _ _ _ _ _ _)
  · simp only [List.mem_cons, List.not_mem_nil, or_false, forall_eq_or_imp, forall_eq] at hcells
    obtain ⟨k1, k2, k3, k4, k5, k6, k7⟩ := hcells
    obtain ⟨s1, s2, s3⟩ := hcomp G hG.left (by simp [k1, k2, k3])
    have hza := hG.left.1 _ _ ma
    have hzb := hG.left.1 _ _ mb
    have ok1 : Ok gen cfg G ops n (n + 1) := by
      refine ⟨s1.widen fun g hg reg row hm => (hd.gate hg).2.2.1 (hen _ _ _ hm),
        fun reg _ _ => s2 reg, fun reg _ _ row => LookupRange.lookup_off _ _
          (LookupRange.selectors_off fun hm => ?_)⟩
      rcases hen _ _ _ hm with e | e
      · exact hd.ne.2.2.2.1 e
      · exact hd.ne.2.2.2.2.1 e
    have ok2 : Ok gen cfg G (decompOps cfg l pa pb pc left right za zb b1 b2 (n + 1)) (n + 1) (n + 2) :=
      decomp_complete hd hG.right (by simp [k1, k2, k3, k4, k5, k6, k7, hza, hzb]) (by rw [a2]; exact h1) (by rw [a2, c2]; exact h2) h3
        (by rw [c2]; exact h4)
    refine ⟨Ok.bind (hashToPoint_local _ _ _ _ _ _) (checkDecomposition_local _ _ _ _ _ _ _ _ _ _ _)
      hrun (checkDecomposition_run cfg l pa pb pc left right za zb b1 b2 (n + 1)) ok1 ok2, ?_⟩
    exact (congrArg Prod.fst s3).symm.trans (congrArg Prod.fst hval)

/-! ## Composition -/

/-- A program that, started at region `n`, returns `a` and goes on to region `n'`, enables selectors
in `sels` only, assigns no cell twice, and whose witnesses meet the constraints of the chips `cs` and give `post`, where the
contents of earlier cells are as in `pre`. -/
structure Does {α : Type} (gen : ℕ → Pt b) (cs : Config C S → Prop) (sels : S → Prop)
    (pre : Grid C (ZMod p) → Prop) (f : M C S (ZMod p) α) (n : ℕ) (a : α) (n' : ℕ)
    (post : Grid C (ZMod p) → Prop) : Prop where
  loc : Local f
  run : ∃ ops, f n = some (a, n', ops) ∧ (∀ s reg row, .enable s reg row ∈ ops → sels s) ∧
    Consistent ops ∧ ∀ G, pre G → Honest G ops → (∀ cfg, cs cfg → Ok gen cfg G ops n n') ∧ post G

section

variable {α β : Type} {gen : ℕ → Pt b} {cs : Config C S → Prop} {sels : S → Prop}
  {pre mid post : Grid C (ZMod p) → Prop}

theorem Does.bind {f : M C S (ZMod p) α} {g : α → M C S (ZMod p) β} {n m n' : ℕ} {a : α} {c : β}
    (hf : Does gen cs sels pre f n a m mid) (hl : ∀ a, Local (g a))
    (hg : Does gen cs sels (fun G => pre G ∧ mid G) (g a) m c n' post) :
    Does gen cs sels pre (f >>= g) n c n' post := by
  obtain ⟨l1, o, h1, e1, c1, k1⟩ := hf
  obtain ⟨l2, o', h2, e2, c2, k2⟩ := hg
  refine ⟨l1.bind hl, o ++ o', bind_of h1 h2, fun s reg row hm => ?_,
    consistent_bind l1 l2 h1 h2 c1 c2, fun G hp hG => ?_⟩
  · rcases List.mem_append.1 hm with hm | hm
    · exact e1 _ _ _ hm
    · exact e2 _ _ _ hm
  · obtain ⟨j1, j2⟩ := k1 G hp hG.left
    obtain ⟨j3, j4⟩ := k2 G ⟨hp, j2⟩ hG.right
    exact ⟨fun cfg hc => Ok.bind l1 l2 h1 h2 (j1 cfg hc) (j3 cfg hc), j4⟩

theorem Does.silent {f : M C S (ZMod p) α} {n : ℕ} {a : α} (hl : Local f)
    (h : f n = some (a, n, [])) (hpost : ∀ G, pre G → post G) :
    Does gen cs sels pre f n a n post :=
  ⟨hl, [], h, by simp, Consistent.nil, fun G hp _ => ⟨fun _ _ => Ok.nil _ _ _ _, hpost G hp⟩⟩

theorem Does.cons {pre' post' : Grid C (ZMod p) → Prop} {f : M C S (ZMod p) α} {n n' : ℕ} {a : α}
    (h : Does gen cs sels pre f n a n' post) (h1 : ∀ G, pre' G → pre G)
    (h2 : ∀ G, pre' G → post G → post' G) : Does gen cs sels pre' f n a n' post' := by
  obtain ⟨l1, o, k1, k2, kc, k3⟩ := h
  exact ⟨l1, o, k1, k2, kc, fun G hp hG => ⟨(k3 G (h1 G hp) hG).1, h2 G hp (k3 G (h1 G hp) hG).2⟩⟩

/-- The other chips with the same range check. -/
theorem Does.others {f : M C S (ZMod p) α} {n n' : ℕ} {a : α} {cfg : Config C S}
    (h : Does gen (· = cfg) (fun s => s ∈ cfg.own ∨ s ∈ rangeSels cfg.sins.range) pre f n a n' post)
    (hc : cs cfg) (hcs : ∀ cfg', cs cfg' → cfg' = cfg ∨ (cfg'.Distinct ∧
      cfg'.sins.range = cfg.sins.range ∧ ∀ s ∈ cfg'.own, s ∉ cfg.own)) :
    Does gen cs (fun s => ∃ c, cs c ∧ (s ∈ c.own ∨ s ∈ rangeSels c.sins.range)) pre f n a n' post := by
  obtain ⟨l1, o, k1, k2, kc, k3⟩ := h
  refine ⟨l1, o, k1, fun s reg row hm => ⟨cfg, hc, k2 s reg row hm⟩, kc, fun G hp hG =>
    ⟨fun cfg' hc' => ?_, (k3 G hp hG).2⟩⟩
  have ok := (k3 G hp hG).1 cfg rfl
  rcases hcs cfg' hc' with rfl | ⟨hd, hr, hsep⟩
  · exact ok
  have hoff : ∀ s ∈ cfg'.own, ∀ reg row, .enable s reg row ∉ o := by
    intro s hs reg row hm
    rcases k2 _ _ _ hm with hm | hm
    · exact hsep s hs hm
    · exact hd.sep s hs (hr ▸ hm)
  refine ⟨ok.sat.widen fun g hg reg row hm => ?_, fun reg _ _ row => Sinsemilla.lookup_off _ _ _
    (by norm_num) (LookupRange.selectors_off (hoff _ (by simp [Config.own]) reg row)),
    fun reg r1 r2 => hr ▸ ok.range reg r1 r2⟩
  by_cases ho : g.1 ∈ cfg'.own
  · exact absurd hm (hoff _ ho reg row)
  · have hin : g ∈ (LookupRange.gates 10 cfg.sins.range : Gates C S (ZMod p)) := by
      rw [← hr]
      simp only [gates, CondSwap.gates, Sinsemilla.gates, Config.own, List.mem_cons, List.mem_append,
        List.not_mem_nil, or_false, Config.condSwap, not_or] at hg ho
      rcases hg with rfl | (rfl | rfl | rfl) | hg
      · exact absurd rfl ho.1
      · exact absurd rfl ho.2.1
      · exact absurd rfl ho.2.2.2
      · exact absurd rfl ho.2.2.1
      · exact hg
    simp [gates, hin]

end

/-- Splits a program into the ones it is made of. -/
local macro "locality" : tactic =>
  `(tactic| repeat' first
    | exact bitrangeOf_local _ _ _ | exact witnessShort_local _ _ _ _ | exact fromSubpieces_local _ _
    | exact finish_local _ _ _ _ _ _ _ _ _ _ _
    | refine Local.bind ?_ fun _ => ?_)

/-- The words of the pieces of an honest message. -/
theorem pieces_words {l L R A B K : ℕ} (hl : l < 2 ^ 10) (hL : L < 2 ^ 255) (hR : R < 2 ^ 255)
    (hA : A = l + 2 ^ 10 * (L % 2 ^ 240))
    (hB : B = L / 2 ^ 240 % 2 ^ 10 + 2 ^ 10 * (L / 2 ^ 250 % 2 ^ 5) + 2 ^ 15 * (R % 2 ^ 5))
    (hK : K = R / 2 ^ 5 % 2 ^ 250) :
    digitsOf 10 25 A ++ (digitsOf 10 2 B ++ digitsOf 10 25 K) = crhWords l L R ∧
    A < 2 ^ 250 ∧ B < 2 ^ 20 ∧ K < 2 ^ 250 ∧ A / 2 ^ 10 = L % 2 ^ 240 ∧
    B / 2 ^ 10 = L / 2 ^ 250 % 2 ^ 5 + 2 ^ 5 * (R % 2 ^ 5) ∧
    L = L % 2 ^ 240 + 2 ^ 240 * (L / 2 ^ 240 % 2 ^ 10 + 2 ^ 10 * (L / 2 ^ 250 % 2 ^ 5)) ∧
    R = R % 2 ^ 5 + 2 ^ 5 * K := by
  have p250 : 2 ^ 250 = 2 ^ 240 * 2 ^ 10 := by rw [← pow_add]
  have p255 : 2 ^ 255 = 2 ^ 5 * 2 ^ 250 := by rw [← pow_add]
  have hA' : A < 2 ^ 250 := by
    rw [hA, p250]
    have := Nat.mod_lt L (show 2 ^ 240 > 0 by positivity)
    generalize 2 ^ 240 = P at *
    omega
  have hB' : B < 2 ^ 20 := by
    have := Nat.mod_lt (L / 2 ^ 240) (show 2 ^ 10 > 0 by positivity)
    have := Nat.mod_lt (L / 2 ^ 250) (show 2 ^ 5 > 0 by positivity)
    have := Nat.mod_lt R (show 2 ^ 5 > 0 by positivity)
    generalize L / 2 ^ 240 % 2 ^ 10 = x at *
    generalize L / 2 ^ 250 % 2 ^ 5 = y at *
    generalize R % 2 ^ 5 = z at *
    omega
  have hK' : K < 2 ^ 250 := by rw [hK]; exact Nat.mod_lt _ (by positivity)
  have hLe : L = L % 2 ^ 240 + 2 ^ 240 * (L / 2 ^ 240 % 2 ^ 10 + 2 ^ 10 * (L / 2 ^ 250 % 2 ^ 5)) := by
    have h1 : L / 2 ^ 250 < 2 ^ 5 := Nat.div_lt_of_lt_mul (by rw [mul_comm, ← p255]; exact hL)
    rw [Nat.mod_eq_of_lt h1, p250, ← Nat.div_div_eq_div_mul, Nat.mod_add_div, Nat.mod_add_div]
  have hRe : R = R % 2 ^ 5 + 2 ^ 5 * K := by
    have h1 : R / 2 ^ 5 < 2 ^ 250 := Nat.div_lt_of_lt_mul (by rw [← p255]; exact hR)
    rw [hK, Nat.mod_eq_of_lt h1, Nat.mod_add_div]
  have hBd : B / 2 ^ 10 = L / 2 ^ 250 % 2 ^ 5 + 2 ^ 5 * (R % 2 ^ 5) := by
    have := Nat.mod_lt (L / 2 ^ 240) (show 2 ^ 10 > 0 by positivity)
    generalize L / 2 ^ 240 % 2 ^ 10 = x at *
    generalize L / 2 ^ 250 % 2 ^ 5 = y at *
    generalize R % 2 ^ 5 = z at *
    omega
  refine ⟨?_, hA', hB', hK', ?_, hBd, hLe, hRe⟩
  · have hall : ∀ w ∈ digitsOf 10 25 A ++ (digitsOf 10 2 B ++ digitsOf 10 25 K), w < 2 ^ 10 := by
      intro w hw
      have hd : ∀ n x, w ∈ digitsOf 10 n x → w < 2 ^ 10 := by
        intro n x h
        obtain ⟨i, -, rfl⟩ := List.mem_map.1 h
        exact Nat.mod_lt _ (by positivity)
      rcases List.mem_append.1 hw with h | h
      · exact hd _ _ h
      · rcases List.mem_append.1 h with h | h
        · exact hd _ _ h
        · exact hd _ _ h
    have hlen : ∀ n x, (digitsOf 10 n x).length = n := by intro n x; simp [digitsOf]
    rw [eq_digitsOf _ hall, crhWords_eq hl hL]
    simp only [List.length_append, hlen]
    refine congrArg (digitsOf 10 52) ?_
    rw [Nat.ofDigits_append, Nat.ofDigits_append, hlen, hlen, digitsOf_value _ _ _ hA',
      digitsOf_value _ _ _ hB', digitsOf_value _ _ _ hK']
    have q1 : (2 ^ 10) ^ 25 = 2 ^ 10 * 2 ^ 240 := by rw [← pow_mul, ← pow_add]
    have q2 : 2 ^ 265 = 2 ^ 25 * 2 ^ 240 := by rw [← pow_add]
    rw [q1, q2, hA, hB]
    clear hA' hB' hK' hA hB hK hall hBd p250 p255 hL hR
    generalize L / 2 ^ 240 % 2 ^ 10 = x at *
    generalize L / 2 ^ 250 % 2 ^ 5 = y at *
    generalize L % 2 ^ 240 = v at *
    generalize R % 2 ^ 5 = z at *
    rw [hLe, hRe]
    ring
  · rw [hA]
    generalize L % 2 ^ 240 = v
    omega

/-- **C60**, completeness of `hash_layer`: for a layer below `2^10` and nodes whose hash is defined,
the program returns the hash and its witnesses meet the constraints and lookups. -/
theorem hashLayer_complete (hg : Good b) (hp : 2 ^ 250 ≤ p) (hp' : p < 2 ^ 255) {gen : ℕ → Pt b}
    {cfg : Config C S} (hd : cfg.Distinct) {Q R : Pt b} (hQ : Q ≠ 0) {l : ℕ} (hl : l < 2 ^ 10)
    {left right : ACell C (ZMod p)}
    (hspec : specHash gen Q (crhWords l left.value.val right.value.val) = some R) (n : ℕ) :
    ∃ out : ACell C (ZMod p), out.value = (enc R).1 ∧
      Does gen (· = cfg) (fun s => s ∈ cfg.own ∨ s ∈ rangeSels cfg.sins.range)
        (fun G => G.at left.cell = left.value ∧ G.at right.cell = right.value)
        (hashLayer (fun w => enc (gen w)) cfg Q l left right) n out (n + 7)
        (fun G => G.at out.cell = out.value) := by
  have hp20 : 2 ^ 20 ≤ p := le_trans (Nat.pow_le_pow_right (by omega) (by omega)) hp
  have hlv : (l : ZMod p).val = l := ZMod.val_natCast_of_lt (by omega)
  set L := left.value.val with hL
  set R' := right.value.val with hR
  have hL255 : L < 2 ^ 255 := (ZMod.val_lt _).trans hp'
  have hR255 : R' < 2 ^ 255 := (ZMod.val_lt _).trans hp'
  obtain ⟨w1, w2, w3, w4, w5, w6, w7, w8⟩ := pieces_words hl hL255 hR255 rfl rfl rfl
  set A := l + 2 ^ 10 * (L % 2 ^ 240) with hA
  set B := L / 2 ^ 240 % 2 ^ 10 + 2 ^ 10 * (L / 2 ^ 250 % 2 ^ 5) + 2 ^ 15 * (R' % 2 ^ 5) with hB
  set K := R' / 2 ^ 5 % 2 ^ 250 with hK
  have hAv : (A : ZMod p).val = A := ZMod.val_natCast_of_lt (by omega)
  have hBv : (B : ZMod p).val = B := ZMod.val_natCast_of_lt (by omega)
  have hKv : (K : ZMod p).val = K := ZMod.val_natCast_of_lt (by omega)
  obtain ⟨b1, o5, r5, v5, e5, d5, k5⟩ := witnessShort_complete hp20 gen hd left.value (start := 250)
    (stop := 255) (by norm_num) (by norm_num) (by norm_num) (n + 1)
  obtain ⟨b2, o6, r6, v6, e6, d6, k6⟩ := witnessShort_complete hp20 gen hd right.value (start := 0)
    (stop := 5) (by norm_num) (by norm_num) (by norm_num) (n + 1 + 1)
  have v5' : b1.value = ((L / 2 ^ 250 % 2 ^ 5 : ℕ) : ZMod p) := v5
  have v6' : b2.value = ((R' % 2 ^ 5 : ℕ) : ZMod p) := by rw [v6, pow_zero, Nat.div_one]
  set pa : Piece C (ZMod p) := ⟨⟨⟨n, cfg.sins.witnessPieces, 0⟩, (A : ZMod p)⟩, 25⟩ with hpa
  set pb : Piece C (ZMod p) := ⟨⟨⟨n + 3, cfg.sins.witnessPieces, 0⟩, (B : ZMod p)⟩, 2⟩ with hpb
  set pc : Piece C (ZMod p) := ⟨⟨⟨n + 4, cfg.sins.witnessPieces, 0⟩, (K : ZMod p)⟩, 25⟩ with hpc
  have hfit : ∀ P ∈ [pa, pb, pc], Fits 256 10 P := by
    simp only [List.mem_cons, List.not_mem_nil, or_false, forall_eq_or_imp, forall_eq]
    refine ⟨⟨by simp [hpa], by simp [hpa], ?_⟩, ⟨by simp [hpb], by simp [hpb], ?_⟩,
      ⟨by simp [hpc], by simp [hpc], ?_⟩⟩
    · change (A : ZMod p).val < _
      rw [hAv]; exact w2
    · change (B : ZMod p).val < _
      rw [hBv]; exact w3
    · change (K : ZMod p).val < _
      rw [hKv]; exact w4
  have hmsg : msgWords 10 [pa, pb, pc] = crhWords l L R' := by
    rw [← w1]
    simp only [msgWords, List.flatMap_cons, List.flatMap_nil, List.append_nil]
    change digitsOf 10 25 (A : ZMod p).val ++ (digitsOf 10 2 (B : ZMod p).val ++
      digitsOf 10 25 (K : ZMod p).val) = _
    rw [hAv, hBv, hKv]
  have hAd : pa.cell.value.val / 2 ^ 10 = L % 2 ^ 240 := by
    change (A : ZMod p).val / 2 ^ 10 = _
    rw [hAv, w5]
  have hBd : pb.cell.value.val / 2 ^ 10 = L / 2 ^ 250 % 2 ^ 5 + 2 ^ 5 * (R' % 2 ^ 5) := by
    change (B : ZMod p).val / 2 ^ 10 = _
    rw [hBv, w6]
  have cL : left.value = (L : ZMod p) := (ZMod.natCast_zmod_val _).symm
  have cR : right.value = (R' : ZMod p) := (ZMod.natCast_zmod_val _).symm
  obtain ⟨out, o10, r10, v10, e10, d10, k10⟩ := finish_complete hg hd hQ (l := l) (left := left)
    (right := right) (pa := pa) (pb := pb) (pc := pc) (b1 := b1) (b2 := b2) rfl rfl rfl hfit
    (by
      rw [hAd]
      change (A : ZMod p) = _
      rw [hA]; push_cast; ring)
    (by
      rw [hAd, hBd, v5', cL]
      change _ = _ + _ * ((B : ZMod p) - _ + _)
      have := congrArg (Nat.cast : ℕ → ZMod p) w7
      refine this.trans ?_
      rw [hB]
      generalize L / 2 ^ 240 % 2 ^ 10 = x
      generalize L / 2 ^ 250 % 2 ^ 5 = y
      generalize L % 2 ^ 240 = v
      generalize R' % 2 ^ 5 = z
      push_cast
      ring)
    (by
      rw [v6', cR]
      change _ = _ + _ * (K : ZMod p)
      have := congrArg (Nat.cast : ℕ → ZMod p) w8
      refine this.trans ?_
      push_cast
      ring)
    (by
      rw [hBd, v5', v6']
      push_cast
      ring)
    (R := R) (gen := gen) (by rw [hmsg]; exact hspec) (n + 5)
  have c3 : concat 0 0 [((((l : ZMod p).val / 2 ^ 0 % 2 ^ (10 - 0) : ℕ) : ZMod p), 10 - 0),
      (((L / 2 ^ 0 % 2 ^ (240 - 0) : ℕ) : ZMod p), 240 - 0)] = some ((A : ZMod p), 10 * 25) := by
    rw [hlv, pow_zero, Nat.div_one, Nat.div_one, Nat.mod_eq_of_lt (by omega : l < 2 ^ (10 - 0))]
    simp only [concat, Nat.zero_lt_succ, if_true]
    rw [if_pos (by norm_num), hA, Nat.sub_zero]
    generalize L % 2 ^ (240 - 0) = v
    push_cast
    simp only [Option.some.injEq, Prod.mk.injEq]
    exact ⟨by ring, by norm_num⟩
  have c7 : concat 0 0 [(((L / 2 ^ 240 % 2 ^ (250 - 240) : ℕ) : ZMod p), 250 - 240),
      (b1.value, 255 - 250), (b2.value, 5 - 0)] = some ((B : ZMod p), 10 * 2) := by
    rw [v5', v6']
    simp only [concat]
    rw [if_pos (by norm_num), if_pos (by norm_num), if_pos (by norm_num), hB]
    norm_num only [Option.some.injEq, Prod.mk.injEq, Nat.reduceSub]
    generalize L / 2 ^ 240 % 2 ^ 10 = x
    generalize L / 2 ^ 250 % 2 ^ 5 = y
    generalize R' % 2 ^ 5 = z
    push_cast
    exact ⟨by ring, trivial⟩
  have c9 : concat 0 0 [(((R' / 2 ^ 5 % 2 ^ (255 - 5) : ℕ) : ZMod p), 255 - 5)]
      = some ((K : ZMod p), 10 * 25) := by
    simp only [concat]
    rw [if_pos (by norm_num)]
    change some ((0 : ZMod p) + ((2 ^ 0 : ℕ) : ZMod p) * (K : ZMod p), 250) = _
    simp
  refine ⟨out, v10, ?_⟩
  unfold hashLayer
  refine Does.bind (mid := fun _ => True) (.silent (bitrangeOf_local _ _ _)
    (bitrangeOf_run _ (by norm_num) (by norm_num) n) fun _ _ => trivial) (fun _ => by locality) ?_
  refine Does.bind (mid := fun _ => True) (.silent (bitrangeOf_local _ _ _)
    (bitrangeOf_run _ (by norm_num) (by norm_num) n) fun _ _ => trivial) (fun _ => by locality) ?_
  refine Does.bind (a := pa) (m := n + 1) (mid := fun G => G.at pa.cell.cell = pa.cell.value)
    ⟨fromSubpieces_local _ _, _, fromSubpieces_run cfg.sins c3 (by norm_num) n, by simp, consistent_one _ _,
      fun G _ hG => ⟨fun _ _ => Ok.advice _ _, hG.1 _ _ (List.mem_singleton.2 rfl)⟩⟩ (fun _ => by locality) ?_
  refine Does.bind (mid := fun _ => True) (.silent (bitrangeOf_local _ _ _)
    (bitrangeOf_run _ (by norm_num) (by norm_num) _) fun _ _ => trivial) (fun _ => by locality) ?_
  refine Does.bind (a := (b1, 255 - 250)) (m := n + 1 + 1) (mid := fun G => G.at b1.cell = b1.value)
    ⟨witnessShort_local _ _ _ _, _, r5, fun s reg row hm => .inr (e5 s reg row hm), d5,
      fun G _ hG => ⟨fun c hc => hc ▸ (k5 G hG).2, (k5 G hG).1⟩⟩ (fun _ => by locality) ?_
  refine Does.bind (a := (b2, 5 - 0)) (m := n + 1 + 1 + 1) (mid := fun G => G.at b2.cell = b2.value)
    ⟨witnessShort_local _ _ _ _, _, r6, fun s reg row hm => .inr (e6 s reg row hm), d6,
      fun G _ hG => ⟨fun c hc => hc ▸ (k6 G hG).2, (k6 G hG).1⟩⟩ (fun _ => by locality) ?_
  refine Does.bind (a := pb) (m := n + 3 + 1) (mid := fun G => G.at pb.cell.cell = pb.cell.value)
    ⟨fromSubpieces_local _ _, _, fromSubpieces_run cfg.sins c7 (by norm_num) _, by simp, consistent_one _ _,
      fun G _ hG => ⟨fun _ _ => Ok.advice _ _, hG.1 _ _ (List.mem_singleton.2 rfl)⟩⟩ (fun _ => by locality) ?_
  refine Does.bind (mid := fun _ => True) (.silent (bitrangeOf_local _ _ _)
    (bitrangeOf_run _ (by norm_num) (by norm_num) _) fun _ _ => trivial) (fun _ => by locality) ?_
  refine Does.bind (a := pc) (m := n + 4 + 1) (mid := fun G => G.at pc.cell.cell = pc.cell.value)
    ⟨fromSubpieces_local _ _, _, fromSubpieces_run cfg.sins c9 (by norm_num) _, by simp, consistent_one _ _,
      fun G _ hG => ⟨fun _ _ => Ok.advice _ _, hG.1 _ _ (List.mem_singleton.2 rfl)⟩⟩ (fun _ => by locality) ?_
  refine ⟨finish_local _ _ _ _ _ _ _ _ _ _ _, _, r10, fun s reg row hm => .inl (e10 s reg row hm), d10,
    fun G hpre hG => ?_⟩
  obtain ⟨⟨⟨⟨⟨⟨⟨⟨⟨⟨q1, q2⟩, -⟩, -⟩, q3⟩, -⟩, q4⟩, q5⟩, q6⟩, -⟩, q7⟩ := hpre
  obtain ⟨j1, j2⟩ := k10 G hG (by
    simp only [List.mem_cons, List.not_mem_nil, or_false, forall_eq_or_imp, forall_eq]
    exact ⟨q3, q6, q7, q1, q2, q4, q5⟩)
  exact ⟨fun c hc => hc ▸ j1, j2⟩

theorem swap_does {gen : ℕ → Pt b} {cfg : Config C S} (hd : cfg.Distinct) (node : ACell C (ZMod p))
    (sibling : ZMod p) (pos : Bool) (n : ℕ) :
    ∃ left right : ACell C (ZMod p), left.value = (if pos then sibling else node.value) ∧
      right.value = (if pos then node.value else sibling) ∧
      Does gen (· = cfg) (fun s => s ∈ cfg.own ∨ s ∈ rangeSels cfg.sins.range)
        (fun G => G.at node.cell = node.value) (CondSwap.swap cfg.condSwap (node, sibling) pos) n
        (left, right) (n + 1)
        (fun G => G.at left.cell = left.value ∧ G.at right.cell = right.value) := by
  obtain ⟨out, n', ops, hrun, -, hcomp⟩ := CondSwap.swap_complete (S := S) cfg.condSwap (node, sibling) pos n
  rw [CondSwap.swap_run] at hrun
  cases hrun
  have hen : ∀ s reg row, .enable s reg row ∈ CondSwap.swapOps cfg.condSwap (node, sibling) pos n →
      s = cfg.qSwap := by
    intro s reg row hm
    simp [CondSwap.swapOps] at hm
    exact hm.1
  refine ⟨_, _, rfl, rfl, CondSwap.swap_local _ _ _, _, CondSwap.swap_run _ _ _ _, ?_, ?_, fun G hp hG => ?_⟩
  · intro s reg row hm
    rw [hen _ _ _ hm]
    simp [Config.own]
  · intro c v w h h'
    have hi := fun i j => advices_inj hd (i := i) (j := j)
    simp only [Assigned, CondSwap.swapOps, List.mem_cons, reduceCtorEq, Op.advice.injEq, List.not_mem_nil,
      or_false, false_or, Config.condSwap] at h h'
    rcases h with ⟨rfl, rfl⟩ | ⟨rfl, rfl⟩ | ⟨rfl, rfl⟩ | ⟨rfl, rfl⟩ | ⟨rfl, rfl⟩ <;>
    · simp [advices_inj hd] at h'
      exact h'.symm
  · obtain ⟨k1, k2⟩ := hcomp G hG hp
    refine ⟨?_, k2⟩
    rintro _ rfl
    refine Ok.of_sat (k1.widen fun g hg reg row hm => (hd.gate hg).2.1 (hen _ _ _ hm)) ?_ ?_
    · intro reg row hm
      exact hd.ne.2.1 (hen _ _ _ hm)
    · intro reg row hm
      exact hd.ne.2.2.2.2.2.1 (hen _ _ _ hm)

/-- The chips of a circuit: their selectors are distinct, but for those of the range check, which they
share. -/
structure Chips (cs : Config C S → Prop) : Prop where
  distinct : ∀ cfg, cs cfg → cfg.Distinct
  range : ∀ cfg cfg', cs cfg → cs cfg' → cfg'.sins.range = cfg.sins.range
  apart : ∀ cfg cfg', cs cfg → cs cfg' → cfg' = cfg ∨ ∀ s ∈ cfg'.own, s ∉ cfg.own

theorem Chips.others {cs : Config C S → Prop} (h : Chips cs) {cfg : Config C S} (hc : cs cfg) :
    ∀ cfg', cs cfg' → cfg' = cfg ∨ (cfg'.Distinct ∧ cfg'.sins.range = cfg.sins.range ∧
      ∀ s ∈ cfg'.own, s ∉ cfg.own) := by
  intro cfg' hc'
  rcases h.apart cfg cfg' hc hc' with e | e
  · exact .inl e
  · exact .inr ⟨h.distinct _ hc', h.range _ _ hc hc', e⟩

theorem layers_complete (hg : Good b) (hp : 2 ^ 250 ≤ p) (hp' : p < 2 ^ 255) {gen : ℕ → Pt b}
    {cs : Config C S → Prop} (hcs : Chips cs) {Q : Pt b} (hQ : Q ≠ 0)
    {chips : ℕ → Option (Config C S)} {path : List (ZMod p × Bool)} {l : ℕ}
    (hl : l + path.length ≤ 2 ^ 10)
    (hchips : ∀ i, l ≤ i → i < l + path.length → ∃ cfg, chips i = some cfg ∧ cs cfg)
    {node : ACell C (ZMod p)} {root : ZMod p} (hspec : specRoot gen Q l node.value path = some root)
    (n : ℕ) :
    ∃ out : ACell C (ZMod p), out.value = root ∧
      Does gen cs (fun s => ∃ c, cs c ∧ (s ∈ c.own ∨ s ∈ rangeSels c.sins.range))
        (fun G => G.at node.cell = node.value)
        (layers (fun w => enc (gen w)) chips Q l node path) n out (n + 8 * path.length)
        (fun G => G.at out.cell = out.value) := by
  induction path generalizing l node n with
  | nil =>
    cases hspec
    exact ⟨node, rfl, .silent (Local.pure _) rfl fun _ h => h⟩
  | cons s rest ih =>
    obtain ⟨sibling, pos⟩ := s
    rw [List.length_cons] at hl hchips
    obtain ⟨cfg, hcfg, hc⟩ := hchips l le_rfl (by omega)
    obtain ⟨left, right, v1, v2, hswap⟩ := swap_does (gen := gen) (hcs.distinct _ hc) node sibling pos n
    rw [specRoot, ← v1, ← v2] at hspec
    obtain ⟨R, hR, hspec⟩ := Option.bind_eq_some_iff.1 hspec
    obtain ⟨next, v3, hhash⟩ := hashLayer_complete hg hp hp' (hcs.distinct _ hc) hQ (l := l) (by omega)
      hR (n + 1)
    obtain ⟨out, v4, hrest⟩ := ih (l := l + 1) (node := next) (by omega)
      (fun i h1 h2 => hchips i (by omega) (by omega)) (by rw [v3]; exact hspec) (n + 1 + 7)
    refine ⟨out, v4, ?_⟩
    unfold layers
    refine Does.bind (mid := fun _ => True) (.silent Local.unwrap (unwrap_of hcfg n)
      fun _ _ => trivial) (fun _ => Local.bind (CondSwap.swap_local _ _ _) fun _ =>
        Local.bind (hashLayer_local _ _ _ _ _ _) fun _ => layers_local _ _ _ _ _ _) ?_
    refine Does.bind ((hswap.others hc (hcs.others hc)).cons (fun _ h => h.1) fun _ _ h => h)
      (fun _ => Local.bind (hashLayer_local _ _ _ _ _ _) fun _ => layers_local _ _ _ _ _ _) ?_
    refine Does.bind ((hhash.others hc (hcs.others hc)).cons (fun _ h => h.2) fun _ _ h => h)
      (fun _ => layers_local _ _ _ _ _ _) ?_
    have e : n + 1 + 7 + 8 * rest.length = n + 8 * ((sibling, pos) :: rest).length := by
      rw [List.length_cons]; ring
    rw [← e]
    exact hrest.cons (fun _ h => h.2) fun _ _ h => h

/-- **C60**, completeness of `calculate_root`: for a path of at most 64 nodes and a position that
the bits of the path can express, if the hashes along the path are defined then the program returns
the root, and its witnesses meet the constraints and lookups of all chips. -/
theorem calculateRoot_complete (hg : Good b) (hp : 2 ^ 250 ≤ p) (hp' : p < 2 ^ 255) {gen : ℕ → Pt b}
    {chips : List (Config C S)} (hne : chips ≠ []) (hcs : Chips (· ∈ chips)) {Q : Pt b} (hQ : Q ≠ 0)
    {leafPos : ℕ} {path : List (ZMod p)} (hlen : path.length ≤ 64) {leaf : ACell C (ZMod p)}
    {root : ZMod p}
    (hspec : specRoot gen Q 0 leaf.value (path.zip (lebs path.length leafPos)) = some root) (n : ℕ) :
    ∃ out ops, calculateRoot (fun w => enc (gen w)) chips Q leafPos path leaf n
        = some (out, n + 8 * path.length, ops) ∧ out.value = root ∧ Consistent ops ∧
      ∀ G, Honest G ops → G.at leaf.cell = leaf.value →
        (∀ cfg ∈ chips, Ok gen cfg G ops n (n + 8 * path.length)) ∧ G.at out.cell = out.value := by
  have hpos : i2lebsp path.length leafPos = some (lebs path.length leafPos) := by
    unfold i2lebsp lebs
    rw [if_pos hlen]
    refine congrArg some (List.map_congr_left fun i _ => ?_)
    rw [Nat.and_two_pow]
    cases leafPos.testBit i <;> simp
  have hz : (path.zip (lebs path.length leafPos)).length = path.length := by simp [lebs]
  have hcl : 0 < chips.length := List.length_pos_iff.2 hne
  obtain ⟨out, hv, -, ops, hrun, -, hcons, hcomp⟩ := layers_complete hg hp hp' hcs hQ
    (chips := fun i => chips[i / ((path.length + chips.length - 1) / chips.length)]?)
    (by rw [hz]; omega) (fun i _ hi => by
      rw [hz] at hi
      have hlt : i / ((path.length + chips.length - 1) / chips.length) < chips.length := by
        have h1 : path.length ≤ chips.length * ((path.length + chips.length - 1) / chips.length) := by
          have := Nat.lt_mul_div_succ (path.length + chips.length - 1) hcl
          rw [Nat.mul_add] at this
          omega
        refine Nat.div_lt_of_lt_mul ?_
        rw [mul_comm]
        omega
      exact ⟨_, List.getElem?_eq_getElem hlt, List.getElem_mem _⟩) hspec n
  rw [hz] at hrun hcomp
  refine ⟨out, ops, ?_, hv, hcons, fun G hG hleaf => hcomp G hleaf hG⟩
  unfold calculateRoot
  refine bind_of (ops₁ := []) (assert_of (by omega) n) ?_
  exact bind_of (ops₁ := []) (unwrap_of hpos n) hrun

end Verif.Merkle
