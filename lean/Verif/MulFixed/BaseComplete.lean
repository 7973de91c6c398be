import Verif.MulFixed.ShortComplete

/-!
# Fixed-base multiplication by a base field element: completeness
-/

namespace Verif.MulFixed

open Verif.Region Verif.Ecc Verif.Utilities Verif.RunningSum

variable {C S : Type} {p q : ℕ} [Fact p.Prime] [Fact q.Prime] {b : ZMod p}

theorem within_of_local {α : Type} {f : M C S (ZMod p) α} {n m : ℕ} {a : α}
    {o : List (Op C S (ZMod p))} (hf : Local f) (h : f n = some (a, m, o)) :
    Within o fun c => n ≤ c.reg ∧ c.reg < m := by
  rintro x v (h' | h')
  · exact (hf _ _ _ _ h).2 _ h' _ rfl
  · exact (hf _ _ _ _ h).2 _ h' _ rfl

theorem enable_of_local {α : Type} {f : M C S (ZMod p) α} {n m : ℕ} {a : α}
    {o : List (Op C S (ZMod p))} (hf : Local f) (h : f n = some (a, m, o)) {s : S} {reg : ℕ} {row : ℤ}
    (h' : .enable s reg row ∈ o) : n ≤ reg ∧ reg < m :=
  (hf _ _ _ _ h).2 _ h' _ rfl

/-- A range check of a new cell, without the strict mode. -/
theorem witnessCheck_complete {cfg : LookupRange.Config C S} (hd : cfg.Distinct) (hp5 : 5 < p)
    (v : ZMod p) (n : ℕ) :
    ∃ zs z13 ops, LookupRange.witnessCheck 256 254 10 cfg v 13 false n = some (zs, n + 1, ops) ∧
      zs[0]? = some ⟨⟨n, cfg.runningSum, 0⟩, v⟩ ∧ zs[13]? = some z13 ∧
      (∀ s r row, .enable s r row ∈ ops → (s = cfg.qLookup ∨ s = cfg.qRunning) ∧ r = n) ∧
      Consistent ops ∧
      ∀ G, Honest G ops → Sat (LookupRange.gates 10 cfg) G ops ∧
        (∀ tot, (∀ op ∈ ops, op ∈ tot) →
          (∀ s row, .enable s n row ∈ tot → .enable s n row ∈ ops) →
          SatLookup (LookupRange.lookup 10 cfg) G tot n) ∧
        G n cfg.runningSum 0 = v ∧ G.at z13.cell = z13.value ∧ (v.val < 2 ^ 130 → G.at z13.cell = 0) := by
  obtain ⟨el, hel⟩ : ∃ el : ACell C (ZMod p), el = ⟨⟨n, cfg.runningSum, 0⟩, v⟩ := ⟨_, rfl⟩
  have hrun := LookupRange.rangeCheck_run (reprBits := 256) (capacity := 254) (K := 10) (numWords := 13)
    (cfg := cfg) (element := el) (reg := n) (strict := false) (n := n + 1)
    (by norm_num) (by norm_num) (by norm_num) (by norm_num) (show p ≠ 2 by omega) (by rw [hel])
  have hlen : (LookupRange.rangeCells 10 cfg n el 13).length = 14 := by
    simp [LookupRange.rangeCells, sumCells_length, digits]
  have hcell : ((LookupRange.rangeCells 10 cfg n el 13)[13]'(by omega)).cell
      = ⟨n, cfg.runningSum, ((13 : ℕ) : ℤ)⟩ := by
    have := zs_cell (reg := n) (col := cfg.runningSum) (offset := 0)
      (inv := ((2 ^ 10 : ℕ) : ZMod p)⁻¹) (z₀ := el) (by rw [hel]; rfl)
      (digits 10 13 (10 * 13) el.value) 13 (by simp [digits])
    rw [zero_add] at this
    exact this
  refine ⟨LookupRange.rangeCells 10 cfg n el 13, (LookupRange.rangeCells 10 cfg n el 13)[13]'(by omega),
    [.advice ⟨n, cfg.runningSum, 0⟩ v] ++ LookupRange.rangeOps 10 cfg n el 13 false, ?_, ?_,
    List.getElem?_eq_getElem _, ?_, ?_, ?_⟩
  · unfold LookupRange.witnessCheck assignRegion
    refine bind_of (a := el) (n' := n + 1) (ops₁ := [.advice ⟨n, cfg.runningSum, 0⟩ v]) ?_ hrun
    rw [hel]; rfl
  · rw [hel]; rfl
  · intro s r row h
    refine LookupRange.copyCheckOps_enables (K := 10) (element := el) (numWords := 13) (strict := false)
      (reg := n) (row := row) ?_
    unfold LookupRange.copyCheckOps
    rcases List.mem_append.1 h with h | h
    · simp at h
    · refine List.mem_append_right _ ?_
      rw [hel] at h ⊢
      exact h
  · unfold LookupRange.rangeOps
    rw [if_neg (by simp), List.append_nil]
    have hs := zs_cell (reg := n) (col := cfg.runningSum) (offset := 0)
      (inv := ((2 ^ 10 : ℕ) : ZMod p)⁻¹) (z₀ := el) (by rw [hel]; rfl)
      (digits 10 13 (10 * 13) el.value)
    set cells := el :: sumCells n cfg.runningSum ((2 ^ 10 : ℕ) : ZMod p)⁻¹ 0 el.value
      (digits 10 13 (10 * 13) el.value) with hcells
    have hmem : ∀ c u, Assigned ([.advice ⟨n, cfg.runningSum, 0⟩ v] ++
        LookupRange.loopOps cfg n ((2 ^ 10 : ℕ) : ZMod p)⁻¹ 0 el.value (digits 10 13 (10 * 13) el.value)) c u →
        ∃ x ∈ cells, c = x.cell ∧ u = x.value := by
      intro c u h
      rcases Assigned.append.1 h with h | h
      · simp [Assigned] at h
        obtain ⟨rfl, rfl⟩ := h
        exact ⟨el, List.mem_cons_self .., by rw [hel], by rw [hel]⟩
      · simp only [Assigned, LookupRange.mem_loopOps, reduceCtorEq, or_self, and_false, exists_false,
          false_or, Op.advice.injEq, or_false] at h
        obtain ⟨x, hx, h1, h2⟩ := h
        exact ⟨x, List.mem_cons_of_mem _ hx, h1, h2⟩
    intro c u w h h'
    obtain ⟨x, hx, rfl, rfl⟩ := hmem c u h
    obtain ⟨y, hy, e, rfl⟩ := hmem _ w h'
    obtain ⟨i, hi, rfl⟩ := List.getElem_of_mem hx
    obtain ⟨j, hj, rfl⟩ := List.getElem_of_mem hy
    have hl : cells.length = 14 := hlen
    have h1 := hs i (by simp [digits]; omega)
    have h2 := hs j (by simp [digits]; omega)
    have h3 := h1.symm.trans (e.trans h2)
    simp only [Cell.mk.injEq, true_and, zero_add, Nat.cast_inj] at h3
    subst h3
    rfl
  · intro G hG
    have h0 : G n cfg.runningSum 0 = v := hG.1 ⟨n, cfg.runningSum, 0⟩ _ (by simp)
    have hel' : G.at el.cell = el.value := by rw [hel]; exact h0
    obtain ⟨-, h2, h3, -⟩ := LookupRange.rangeCheck_complete hd (element := el) (by rw [hel]) hrun
      (by norm_num) (by norm_num) (by norm_num) (by norm_num) hp5 (fun _ h => h) (fun _ _ h => h) G hG.right hel'
    refine ⟨Sat.append ⟨by simp, by simp, by simp, by simp⟩ (h2.2 (by simp)), ?_, h0,
      h3 _ (List.getElem_mem _), ?_⟩
    · intro tot hsub hsel
      exact (LookupRange.rangeCheck_complete hd (element := el) (by rw [hel]) hrun
        (by norm_num) (by norm_num) (by norm_num) (by norm_num) hp5
        (fun _ h => hsub _ (List.mem_append_right _ h)) (fun s row h => by
          have := hsel s row h
          rcases List.mem_append.1 this with h | h
          · simp at h
          · exact h) G hG.right hel').1
    · intro hv
      have h4 := (honest_sums (W := 13) (bits := 130) (K := 10) (offset := 0) (reg := n) (col := cfg.runningSum)
        (LookupRange.two_pow_ne (by omega) 10) (by norm_num) (z₀ := el) (by rw [hel]; rfl) (G := G) h3).2
      rw [hcell]
      rw [zero_add] at h4
      refine h4.2 ?_
      rw [hel]
      exact hv

namespace BaseFieldElem

theorem alpha0_val (hp : p = 2 ^ 254 + T_P) (m : ℕ) :
    ((m : ZMod p) - ((m / 8 ^ 84 : ℕ) : ZMod p) * (((2 ^ 126 : ℕ) : ZMod p)) ^ 2
      + (((2 ^ 65 : ℕ) : ZMod p)) ^ 2 - (T_P : ZMod p)).val = m % 2 ^ 252 + (2 ^ 130 - T_P) := by
  have h1 : (m : ZMod p) - ((m / 8 ^ 84 : ℕ) : ZMod p) * (((2 ^ 126 : ℕ) : ZMod p)) ^ 2
      + (((2 ^ 65 : ℕ) : ZMod p)) ^ 2 - (T_P : ZMod p) = ((m % 2 ^ 252 + (2 ^ 130 - T_P) : ℕ) : ZMod p) := by
    have e : m = 2 ^ 252 * (m / 8 ^ 84) + m % 2 ^ 252 := by
      rw [show 8 ^ 84 = 2 ^ 252 by norm_num]; exact (Nat.div_add_mod _ _).symm
    have e' : 2 ^ 130 = T_P + (2 ^ 130 - T_P) := by unfold T_P; norm_num
    have c1 := congrArg (fun k : ℕ => (k : ZMod p)) e
    have c2 := congrArg (fun k : ℕ => (k : ZMod p)) e'
    generalize m % 2 ^ 252 = r at c1 ⊢
    generalize m / 8 ^ 84 = s at c1 ⊢
    generalize 2 ^ 130 - T_P = t at c2 ⊢
    push_cast at c1 c2 ⊢
    linear_combination c1 + c2
  rw [h1, ZMod.val_natCast, Nat.mod_eq_of_lt]
  have : m % 2 ^ 252 < 2 ^ 252 := Nat.mod_lt _ (by positivity)
  rw [hp]
  have : T_P < 2 ^ 130 := by unfold T_P; norm_num
  have : (2 : ℕ) ^ 252 + 2 ^ 130 < 2 ^ 254 := by norm_num
  omega

theorem canon_polys (hp : p = 2 ^ 254 + T_P) {m : ℕ} (hm : m < p) {z13 a0 : ZMod p}
    (ha0 : a0 = (m : ZMod p) - ((m / 8 ^ 84 : ℕ) : ZMod p) * (((2 ^ 126 : ℕ) : ZMod p)) ^ 2
      + (((2 ^ 65 : ℕ) : ZMod p)) ^ 2 - (T_P : ZMod p))
    (hz : a0.val < 2 ^ 130 → z13 = 0) :
    ∀ f ∈ polys (m : ZMod p) ((m / 8 ^ 84 : ℕ) : ZMod p) ((m / 2 ^ 252 % 2 ^ 2 : ℕ) : ZMod p)
      ((m / 2 ^ 254 % 2 ^ 1 : ℕ) : ZMod p) a0 z13 ((m / 8 ^ 44 : ℕ) : ZMod p) ((m / 8 ^ 43 : ℕ) : ZMod p),
      f = 0 := by
  have hval := alpha0_val hp m
  rw [← ha0] at hval
  have hT : T_P < 2 ^ 126 := by unfold T_P; norm_num
  have hm' : m < 2 ^ 254 + T_P := hp ▸ hm
  have h84 : m / 8 ^ 84 = m / 2 ^ 252 % 2 ^ 2 + m / 2 ^ 254 % 2 ^ 1 * 4 := by
    rw [show 8 ^ 84 = 2 ^ 252 by norm_num, show 2 ^ 254 = 2 ^ 252 * 4 by norm_num,
      ← Nat.div_div_eq_div_mul]
    have : m / 2 ^ 252 < 8 := by
      rw [Nat.div_lt_iff_lt_mul (by positivity)]
      have : (2 : ℕ) ^ 254 + 2 ^ 126 < 8 * 2 ^ 252 := by norm_num
      omega
    omega
  have hbit : m / 2 ^ 254 % 2 ^ 1 = 0 ∨ m / 2 ^ 254 % 2 ^ 1 = 1 := by omega
  have hlast : a0 - ((m : ZMod p) - ((m / 8 ^ 84 : ℕ) : ZMod p) * (((2 ^ 126 : ℕ) : ZMod p)) ^ 2
      + (((2 ^ 65 : ℕ) : ZMod p)) ^ 2 - (T_P : ZMod p)) = 0 := by rw [ha0, sub_self]
  have hsplit : ((m / 8 ^ 84 : ℕ) : ZMod p) - (((m / 2 ^ 252 % 2 ^ 2 : ℕ) : ZMod p)
      + ((m / 2 ^ 254 % 2 ^ 1 : ℕ) : ZMod p) * 4) = 0 := by
    rw [h84]; push_cast; ring
  have hr : rangeCheck ((m / 2 ^ 252 % 2 ^ 2 : ℕ) : ZMod p) (2 ^ 2) = 0 :=
    (rangeCheck_iff _ _ (by norm_num)).2 ⟨_, Nat.mod_lt _ (by norm_num), rfl⟩
  have hb : boolCheck ((m / 2 ^ 254 % 2 ^ 1 : ℕ) : ZMod p) = 0 := by
    rw [boolCheck_iff]
    rcases hbit with h | h <;> rw [h] <;> simp
  simp only [polys, List.mem_cons, List.not_mem_nil, or_false, forall_eq_or_imp, forall_eq]
  refine ⟨?_, ?_, ?_, ?_, hr, hb, hsplit, hlast⟩
  all_goals rcases hbit with h | h
  · rw [h]; simp
  · obtain ⟨t, ht, rfl⟩ : ∃ t, t < T_P ∧ m = 2 ^ 254 + t := by
      have : m / 2 ^ 254 ≠ 0 := by omega
      have h1 : 2 ^ 254 ≤ m := by
        by_contra hc; exact this (Nat.div_eq_of_lt (by omega))
      exact ⟨m - 2 ^ 254, by omega, by omega⟩
    have : (2 ^ 254 + t) / 2 ^ 252 = 4 := by
      rw [show 2 ^ 254 + t = t + 4 * 2 ^ 252 by ring, Nat.add_mul_div_right _ _ (by positivity),
        Nat.div_eq_of_lt (ht.trans (hT.trans (by norm_num)))]
    rw [this]; simp
  · rw [h]; simp
  · obtain ⟨t, ht, rfl⟩ : ∃ t, t < T_P ∧ m = 2 ^ 254 + t := by
      have : m / 2 ^ 254 ≠ 0 := by omega
      have h1 : 2 ^ 254 ≤ m := by
        by_contra hc; exact this (Nat.div_eq_of_lt (by omega))
      exact ⟨m - 2 ^ 254, by omega, by omega⟩
    have e1 : (2 ^ 254 + t) / 8 ^ 84 = 4 := by
      rw [show 2 ^ 254 + t = t + 4 * 8 ^ 84 by ring, Nat.add_mul_div_right _ _ (by positivity),
        Nat.div_eq_of_lt (ht.trans (hT.trans (by norm_num)))]
    have e2 : (2 ^ 254 + t) / 8 ^ 44 = 2 ^ 122 := by
      rw [show 2 ^ 254 + t = t + 2 ^ 122 * 8 ^ 44 by ring, Nat.add_mul_div_right _ _ (by positivity),
        Nat.div_eq_of_lt (ht.trans (hT.trans (by norm_num))), zero_add]
    rw [e1, e2]; push_cast; ring
  · rw [h]; simp
  · obtain ⟨t, ht, rfl⟩ : ∃ t, t < T_P ∧ m = 2 ^ 254 + t := by
      have : m / 2 ^ 254 ≠ 0 := by omega
      have h1 : 2 ^ 254 ≤ m := by
        by_contra hc; exact this (Nat.div_eq_of_lt (by omega))
      exact ⟨m - 2 ^ 254, by omega, by omega⟩
    have e1 : (2 ^ 254 + t) / 8 ^ 43 = 2 ^ 125 := by
      rw [show 2 ^ 254 + t = t + 2 ^ 125 * 8 ^ 43 by ring, Nat.add_mul_div_right _ _ (by positivity),
        Nat.div_eq_of_lt (ht.trans (hT.trans (by norm_num))), zero_add]
    have e2 : (2 ^ 254 + t) / 8 ^ 44 = 2 ^ 122 := by
      rw [show 2 ^ 254 + t = t + 2 ^ 122 * 8 ^ 44 by ring, Nat.add_mul_div_right _ _ (by positivity),
        Nat.div_eq_of_lt (ht.trans (hT.trans (by norm_num))), zero_add]
    rw [e1, e2]
    have : (((2 ^ 125 : ℕ) : ZMod p) - ((2 ^ 122 : ℕ) : ZMod p) * 8) = 0 := by push_cast; ring
    rw [this, (boolCheck_iff (0 : ZMod p)).2 (.inl rfl), mul_zero]
  · rw [h]; simp
  · obtain ⟨t, ht, rfl⟩ : ∃ t, t < T_P ∧ m = 2 ^ 254 + t := by
      have : m / 2 ^ 254 ≠ 0 := by omega
      have h1 : 2 ^ 254 ≤ m := by
        by_contra hc; exact this (Nat.div_eq_of_lt (by omega))
      exact ⟨m - 2 ^ 254, by omega, by omega⟩
    have e1 : (2 ^ 254 + t) % 2 ^ 252 = t := by
      rw [show 2 ^ 254 + t = t + 2 ^ 252 * 4 by ring, Nat.add_mul_mod_self_left,
        Nat.mod_eq_of_lt (ht.trans (hT.trans (by norm_num)))]
    rw [hz (by rw [hval, e1]; have : T_P < 2 ^ 130 := by unfold T_P; norm_num
               omega), mul_zero]

/-- The columns and selectors are different. -/
structure Config.Distinct (cfg : Config C S) : Prop where
  super : cfg.super.Distinct
  lookup : cfg.lookup.Distinct
  cols : [cfg.canonAdvices 0, cfg.canonAdvices 1, cfg.canonAdvices 2].Nodup
  own : cfg.qMulFixedBaseField ∉ cfg.super.selectors ++ Merkle.rangeSels cfg.lookup
  sep : ∀ s ∈ cfg.super.selectors, s ∉ Merkle.rangeSels cfg.lookup

/-- The operations of the region of the canonicity checks. -/
def canonOps (cfg : Config C S) (alpha z84 alpha0' z13 z44 z43 : ACell C (ZMod p)) (a1 a2 : ZMod p)
    (reg : ℕ) : List (Op C S (ZMod p)) :=
  [.enable cfg.qMulFixedBaseField reg 1,
   .advice ⟨reg, cfg.canonAdvices 0, 0⟩ alpha.value, .equal ⟨reg, cfg.canonAdvices 0, 0⟩ alpha.cell,
   .advice ⟨reg, cfg.canonAdvices 2, 0⟩ z84.value, .equal ⟨reg, cfg.canonAdvices 2, 0⟩ z84.cell,
   .advice ⟨reg, cfg.canonAdvices 0, 1⟩ alpha0'.value, .equal ⟨reg, cfg.canonAdvices 0, 1⟩ alpha0'.cell,
   .advice ⟨reg, cfg.canonAdvices 1, 1⟩ a1, .advice ⟨reg, cfg.canonAdvices 2, 1⟩ a2,
   .advice ⟨reg, cfg.canonAdvices 0, 2⟩ z13.value, .equal ⟨reg, cfg.canonAdvices 0, 2⟩ z13.cell,
   .advice ⟨reg, cfg.canonAdvices 1, 2⟩ z44.value, .equal ⟨reg, cfg.canonAdvices 1, 2⟩ z44.cell,
   .advice ⟨reg, cfg.canonAdvices 2, 2⟩ z43.value, .equal ⟨reg, cfg.canonAdvices 2, 2⟩ z43.cell]

theorem canonRegion_run (cfg : Config C S) (alpha z84 alpha0' z13 z44 z43 : ACell C (ZMod p)) (reg n : ℕ) :
    canonRegion cfg alpha z84 alpha0' z13 z44 z43 reg n
      = some ((), n, canonOps cfg alpha z84 alpha0' z13 z44 z43
        ((alpha.value.val / 2 ^ 252 % 2 ^ (254 - 252) : ℕ) : ZMod p)
        ((alpha.value.val / 2 ^ 254 % 2 ^ (255 - 254) : ℕ) : ZMod p) reg) := by
  have h1 := bitrangeSubset_eq (numBits := 255) (reprBits := 256) (by norm_num) alpha.value (start := 252)
    (stop := 254) (by norm_num) (by norm_num)
  have h2 := bitrangeSubset_eq (numBits := 255) (reprBits := 256) (by norm_num) alpha.value (start := 254)
    (stop := 255) (by norm_num) (by norm_num)
  generalize ((alpha.value.val / 2 ^ 252 % 2 ^ (254 - 252) : ℕ) : ZMod p) = a1 at h1 ⊢
  generalize ((alpha.value.val / 2 ^ 254 % 2 ^ (255 - 254) : ℕ) : ZMod p) = a2 at h2 ⊢
  unfold canonRegion canonOps
  refine bind_of (n' := n) (ops₁ := [_]) rfl ?_
  refine bind_of (n' := n) (ops₁ := [_, _]) rfl ?_
  refine bind_of (n' := n) (ops₁ := [_, _]) rfl ?_
  refine bind_of (n' := n) (ops₁ := [_, _]) rfl ?_
  refine bind_of (ops₁ := []) (unwrap_of h1 n) ?_
  refine bind_of (n' := n) (ops₁ := [_]) rfl ?_
  refine bind_of (ops₁ := []) (unwrap_of h2 n) ?_
  rfl

theorem canonOps_consistent {cfg : Config C S}
    (hc : [cfg.canonAdvices 0, cfg.canonAdvices 1, cfg.canonAdvices 2].Nodup)
    (alpha z84 alpha0' z13 z44 z43 : ACell C (ZMod p)) (a1 a2 : ZMod p) (reg : ℕ) :
    Consistent (canonOps cfg alpha z84 alpha0' z13 z44 z43 a1 a2 reg) := by
  obtain ⟨f, hf⟩ := exists_fun (V := ℤ → ZMod p) [
    (cfg.canonAdvices 0, fun r => if r = 0 then alpha.value else if r = 1 then alpha0'.value else z13.value),
    (cfg.canonAdvices 1, fun r => if r = 1 then a1 else z44.value),
    (cfg.canonAdvices 2, fun r => if r = 0 then z84.value else if r = 1 then a2 else z43.value)] hc
  simp only [List.mem_cons, List.not_mem_nil, or_false, forall_eq_or_imp, forall_eq] at hf
  obtain ⟨f0, f1, f2⟩ := hf
  refine Written.consistent (reg := reg) (f := f) fun c v h => ?_
  simp only [canonOps, Assigned, List.mem_cons, List.not_mem_nil, or_false, Op.advice.injEq,
    reduceCtorEq, false_or] at h
  rcases h with ⟨rfl, rfl⟩ | ⟨rfl, rfl⟩ | ⟨rfl, rfl⟩ | ⟨rfl, rfl⟩ | ⟨rfl, rfl⟩ | ⟨rfl, rfl⟩ |
    ⟨rfl, rfl⟩ | ⟨rfl, rfl⟩
  · exact ⟨rfl, by rw [f0]; rfl⟩
  · exact ⟨rfl, by rw [f2]; rfl⟩
  · exact ⟨rfl, by rw [f0]; rfl⟩
  · exact ⟨rfl, by rw [f1]; rfl⟩
  · exact ⟨rfl, by rw [f2]; rfl⟩
  · exact ⟨rfl, by rw [f0]; rfl⟩
  · exact ⟨rfl, by rw [f1]; rfl⟩
  · exact ⟨rfl, by rw [f2]; rfl⟩

/-- **C63**, completeness: the multiplication succeeds for every element of the base field, assigns no
cell twice, meets the constraints and the lookups, and returns the multiple. -/
theorem assign_complete (hg : Good b) (hp : p = 2 ^ 254 + T_P) {base : FixedPoint b}
    (hv : base.Valid numWindows) (hB : Large base.generator numWindows) (hq : q • base.generator = 0)
    (hq8 : 8 ≤ q) {cfg : Config C S} (hc : cfg.super.Configured) (hd : cfg.Distinct)
    (scalar : ACell C (ZMod p)) (n : ℕ) :
    ∃ r ops, assign q cfg scalar base n = some (r, n + 4, ops) ∧
      Val r (scalar.value.val • base.generator) ∧ Consistent ops ∧
      ∀ G, Honest G ops → G.at scalar.cell = scalar.value →
        Sat (gates b cfg) G ops ∧ (∀ reg, SatLookup (LookupRange.lookup 10 cfg.lookup) G ops reg) ∧
        Holds G r (scalar.value.val • base.generator) := by
  have hp8 : 8 < p := by rw [hp]; unfold T_P; norm_num
  obtain ⟨d1, d2, d3⟩ := hd.super.ne
  have hown := hd.own
  have hsep := hd.sep
  simp only [Config.selectors, List.mem_append, List.mem_cons, List.not_mem_nil, or_false, not_or,
    forall_eq_or_imp, forall_eq] at hown hsep
  obtain ⟨⟨t1, t2, t3⟩, t4⟩ := hown
  obtain ⟨u1, u2, u3⟩ := hsep
  have hbs : cfg.lookup.qBitshift ∈ Merkle.rangeSels cfg.lookup := by simp [Merkle.rangeSels]
  have hls : cfg.lookup.qLookup ∈ Merkle.rangeSels cfg.lookup := by simp [Merkle.rangeSels]
  have hrs : cfg.lookup.qRunning ∈ Merkle.rangeSels cfg.lookup := by simp [Merkle.rangeSels]
  have hm : scalar.value.val < 2 ^ 255 := by
    refine lt_trans (ZMod.val_lt _) ?_
    rw [hp]; unfold T_P; norm_num
  obtain ⟨acc, mulB, o1, hrun, hvacc, hvmul, hen, hcon, hsat⟩ := sumFirst_complete (q := q) hg
    (N := numWindows) (bits := 255) (by decide) (by decide) (by decide) hv hB hq hp8 hq8 hc hd.super
    scalar hm n
  obtain ⟨m, hmv⟩ : ∃ m, m = scalar.value.val := ⟨_, rfl⟩
  have hcast : (m : ZMod p) = scalar.value := by rw [hmv]; exact ZMod.natCast_zmod_val _
  have hmp : m < p := by rw [hmv]; exact ZMod.val_lt _
  rw [← hmv] at hm hrun hvacc hvmul hsat ⊢
  obtain ⟨z, hz⟩ : ∃ z : ℕ → ACell C (ZMod p), ∀ i, z i = ⟨⟨n, cfg.super.runningSum.z, ((i : ℕ) : ℤ)⟩,
    ((m / 8 ^ i : ℕ) : ZMod p)⟩ := ⟨_, fun _ => rfl⟩
  have hget : ∀ i ≤ numWindows, (sumOf (p := p) cfg.super.runningSum n m numWindows)[i]? = some (z i) := by
    intro i hi; rw [hz]; exact sumOf_get _ _ _ _ _ hi
  have htotal : entry base.generator numWindows (numWindows - 1) (digit m (numWindows - 1)) +
      psum (digit m) (numWindows - 1) • base.generator = m • base.generator := by
    rw [show numWindows - 1 = 84 from rfl, show numWindows = 84 + 1 from rfl, total, value_digit,
      Nat.mod_eq_of_lt]
    refine lt_of_lt_of_le hm ?_
    norm_num
  obtain ⟨hadd1, hadd2⟩ := Add.complete hg (Add.run cfg.super.add mulB acc (n + 1) 0 (n + 1 + 1)) hvmul hvacc
  rw [htotal] at hadd1 hadd2
  obtain ⟨a0, ha0⟩ : ∃ a0 : ZMod p, a0 = (z 0).value - (z 84).value * (((2 ^ 126 : ℕ) : ZMod p)) ^ 2
      + (((2 ^ 65 : ℕ) : ZMod p)) ^ 2 - (T_P : ZMod p) := ⟨_, rfl⟩
  obtain ⟨zs, z13, o3, hrun3, hzs0, hzs13, hen3, hcon3, hsat3⟩ :=
    witnessCheck_complete hd.lookup (show 5 < p by omega) a0 (n + 1 + 1)
  obtain ⟨c0, hc0⟩ : ∃ c0 : ACell C (ZMod p), c0 = ⟨⟨n + 1 + 1, cfg.lookup.runningSum, 0⟩, a0⟩ := ⟨_, rfl⟩
  rw [← hc0] at hzs0
  have hrun4 := canonRegion_run cfg (z 0) (z 84) c0 z13 (z 44) (z 43) (n + 1 + 1 + 1) (n + 1 + 1 + 1 + 1)
  have hz0 : (z 0).value = m := by rw [hz]; simp
  have hz0v : (z 0).value.val = m := by rw [hz0, hcast]; exact hmv.symm
  rw [hz0v] at hrun4
  obtain ⟨o4, ho4⟩ : ∃ o4, o4 = canonOps cfg (z 0) (z 84) c0 z13 (z 44) (z 43)
    ((m / 2 ^ 252 % 2 ^ (254 - 252) : ℕ) : ZMod p) ((m / 2 ^ 254 % 2 ^ (255 - 254) : ℕ) : ZMod p)
    (n + 1 + 1 + 1) := ⟨_, rfl⟩
  rw [← ho4] at hrun4
  have l1 : Local (assignRegion fun reg => (do
      let zs ← copyDecompose 256 3 cfg.super.runningSum reg 0 scalar true 255 numWindows
      let ks ← unwrap (runningSumToWindows q (zs.map ACell.value))
      let (acc, mulB) ← assignRegionInner cfg.super numWindows reg 0 ks base
        cfg.super.runningSum.qRangeCheck
      pure (zs, acc, mulB) : M C S (ZMod p) _)) := Local.assignRegion sumFirst_acts
  have l2 : Local (assignRegion fun reg => Add.assignRegion cfg.super.add mulB acc reg 0 :
      M C S (ZMod p) _) := Local.assignRegion fun _ => add_acts
  have l4 : Local (assignRegion fun reg => canonRegion cfg (z 0) (z 84) c0 z13 (z 44) (z 43) reg) :=
    Local.assignRegion canonRegion_acts
  have hrun2 : (assignRegion fun reg => Add.assignRegion cfg.super.add mulB acc reg 0 :
      M C S (ZMod p) _) (n + 1) = some (Add.out cfg.super.add mulB acc (n + 1) 0, n + 1 + 1,
        Add.ops cfg.super.add mulB acc (n + 1) 0) := Add.run cfg.super.add mulB acc (n + 1) 0 (n + 1 + 1)
  have hfull : assign q cfg scalar base n = some (Add.out cfg.super.add mulB acc (n + 1) 0, n + 4,
      o1 ++ (Add.ops cfg.super.add mulB acc (n + 1) 0 ++ (o3 ++ (o4 ++ [])))) := by
    unfold assign
    refine bind_of (a := (sumOf cfg.super.runningSum n m numWindows, acc, mulB)) (n' := n + 1) hrun ?_
    refine bind_of hrun2 ?_
    refine bind_of (ops₁ := []) (unwrap_of (hget 0 (by decide)) _) ?_
    refine bind_of (ops₁ := []) (unwrap_of (hget 43 (by decide)) _) ?_
    refine bind_of (ops₁ := []) (unwrap_of (hget 44 (by decide)) _) ?_
    refine bind_of (ops₁ := []) (unwrap_of (hget 84 (by decide)) _) ?_
    rw [← ha0]
    refine bind_of hrun3 ?_
    refine bind_of (ops₁ := []) (unwrap_of hzs0 _) ?_
    refine bind_of (ops₁ := []) (unwrap_of hzs13 _) ?_
    exact bind_of (n' := n + 1 + 1 + 1 + 1) hrun4 rfl
  have e1 : ∀ s r row, .enable s r row ∈ o1 → n ≤ r ∧ r < n + 1 :=
    fun s r row h => enable_of_local l1 (n := n) hrun h
  have e2 : ∀ s r row, .enable s r row ∈ (Add.ops cfg.super.add mulB acc (n + 1) 0 :
      List (Op C S (ZMod p))) → n + 1 ≤ r ∧ r < n + 1 + 1 :=
    fun s r row h => enable_of_local l2 (n := n + 1) hrun2 h
  have e4 : ∀ s r row, .enable s r row ∈ o4 → s = cfg.qMulFixedBaseField ∧ r = n + 1 + 1 + 1 ∧ row = 1 := by
    intro s r row h
    rw [ho4] at h
    simpa [canonOps] using h
  have hal : a0 = (m : ZMod p) - ((m / 8 ^ 84 : ℕ) : ZMod p) * (((2 ^ 126 : ℕ) : ZMod p)) ^ 2
      + (((2 ^ 65 : ℕ) : ZMod p)) ^ 2 - (T_P : ZMod p) := by
    rw [ha0, hz0, hz]
  refine ⟨_, _, hfull, hadd1, ?_, ?_⟩
  · have w1 := within_of_local l1 (n := n) hrun
    have w2 := within_of_local l2 (n := n + 1) hrun2
    have w3 := within_of_local witnessCheck_local hrun3
    have w4 := within_of_local l4 (n := n + 1 + 1 + 1) hrun4
    have k4 : Consistent o4 := by rw [ho4]; exact canonOps_consistent hd.cols _ _ _ _ _ _ _ _ _
    rw [List.append_nil]
    refine hcon.append ((addOps_consistent hd.super.addCols mulB acc (n + 1)).append
      (hcon3.append k4 w3 w4 fun c h h' => by omega) w2 (w3.append w4) fun c h h' => by omega) w1
      (w2.append (w3.append w4)) fun c h h' => by omega
  · intro G hG hGs
    have hG1 : Honest G o1 := hG.left
    have hG2 : Honest G (Add.ops cfg.super.add mulB acc (n + 1) 0) := hG.right.left
    have hG3 : Honest G o3 := hG.right.right.left
    have hG4 : Honest G o4 := hG.right.right.right.left
    obtain ⟨s1, hhacc, hhmul, hrows⟩ := hsat G hG1 hGs
    obtain ⟨s2, hh⟩ := hadd2 G hG2 hhmul hhacc
    obtain ⟨s3, hl3, ha0c, hz13c, hz13z⟩ := hsat3 G hG3
    have hzc : ∀ i ≤ numWindows, G.at (z i).cell = (z i).value := by
      intro i hi; rw [hz]; exact hrows i hi
    rw [ho4] at hG4
    have g1 : G (n + 1 + 1 + 1) (cfg.canonAdvices 0) 0 = (z 0).value :=
      hG4.1 ⟨n + 1 + 1 + 1, cfg.canonAdvices 0, 0⟩ _ (by simp [canonOps])
    have g2 : G (n + 1 + 1 + 1) (cfg.canonAdvices 2) 0 = (z 84).value :=
      hG4.1 ⟨n + 1 + 1 + 1, cfg.canonAdvices 2, 0⟩ _ (by simp [canonOps])
    have g3 : G (n + 1 + 1 + 1) (cfg.canonAdvices 0) 1 = c0.value :=
      hG4.1 ⟨n + 1 + 1 + 1, cfg.canonAdvices 0, 1⟩ _ (by simp [canonOps])
    have g4 : G (n + 1 + 1 + 1) (cfg.canonAdvices 1) 1 = ((m / 2 ^ 252 % 2 ^ (254 - 252) : ℕ) : ZMod p) :=
      hG4.1 ⟨n + 1 + 1 + 1, cfg.canonAdvices 1, 1⟩ _ (by simp [canonOps])
    have g5 : G (n + 1 + 1 + 1) (cfg.canonAdvices 2) 1 = ((m / 2 ^ 254 % 2 ^ (255 - 254) : ℕ) : ZMod p) :=
      hG4.1 ⟨n + 1 + 1 + 1, cfg.canonAdvices 2, 1⟩ _ (by simp [canonOps])
    have g6 : G (n + 1 + 1 + 1) (cfg.canonAdvices 0) 2 = z13.value :=
      hG4.1 ⟨n + 1 + 1 + 1, cfg.canonAdvices 0, 2⟩ _ (by simp [canonOps])
    have g7 : G (n + 1 + 1 + 1) (cfg.canonAdvices 1) 2 = (z 44).value :=
      hG4.1 ⟨n + 1 + 1 + 1, cfg.canonAdvices 1, 2⟩ _ (by simp [canonOps])
    have g8 : G (n + 1 + 1 + 1) (cfg.canonAdvices 2) 2 = (z 43).value :=
      hG4.1 ⟨n + 1 + 1 + 1, cfg.canonAdvices 2, 2⟩ _ (by simp [canonOps])
    have hc0v : c0.value = a0 := by rw [hc0]
    have hc0c : G.at c0.cell = c0.value := by rw [hc0]; exact ha0c
    have hpoly := canon_polys hp hmp (z13 := z13.value) hal fun h => hz13c.symm.trans (hz13z h)
    refine ⟨⟨?_, ?_, ?_, fun c v hm => hG.2 c v hm⟩, ?_, hh⟩
    · intro g hgm r row hm
      rcases List.mem_cons.1 hgm with rfl | hgm
      · have hm4 : .enable cfg.qMulFixedBaseField r row ∈ o4 := by
          simp only [List.mem_append, List.not_mem_nil, or_false] at hm
          rcases hm with hm | hm | hm | hm
          · rcases hen _ _ _ hm with h | h
            · exact absurd h t1
            · exact absurd h t3
          · exact absurd (addOps_enable hm) t2
          · rcases (hen3 _ _ _ hm).1 with h | h
            · exact absurd (h ▸ hls) t4
            · exact absurd (h ▸ hrs) t4
          · exact hm
        obtain ⟨-, rfl, rfl⟩ := e4 _ _ _ hm4
        intro f hf
        simp only [Grid.query, add_zero, show (1 : ℤ) + -1 = 0 from rfl, show (1 : ℤ) + 1 = 2 from rfl] at hf
        rw [g1, g2, g3, g4, g5, g6, g7, g8, hz0, hc0v, hz 84, hz 44, hz 43] at hf
        exact hpoly f hf
      · have hne : g.1 ≠ cfg.qMulFixedBaseField := by
          rcases List.mem_append.1 hgm with hgm | hgm
          · simp only [LookupRange.gates, List.mem_singleton] at hgm
            subst hgm
            exact fun h => t4 (h ▸ hbs)
          · rcases gates_cases hgm with h | ⟨h, -⟩ | ⟨h, -⟩
            · exact fun h' => t1 (h'.symm.trans h)
            · exact fun h' => t2 (h'.symm.trans h)
            · exact fun h' => t3 (h'.symm.trans h)
        simp only [List.mem_append, List.not_mem_nil, or_false] at hm
        rcases List.mem_append.1 hgm with hgl | hgs
        · have hgb : g.1 ∈ Merkle.rangeSels cfg.lookup := by
            simp only [LookupRange.gates, List.mem_singleton] at hgl
            subst hgl
            exact hbs
          rcases hm with hm | hm | hm | hm
          · rcases hen _ _ _ hm with h | h
            · exact absurd (h ▸ hgb) u1
            · exact absurd (h ▸ hgb) u3
          · exact absurd (addOps_enable hm ▸ hgb) u2
          · exact s3.gates g hgl r row hm
          · exact absurd (e4 _ _ _ hm).1 hne
        · rcases hm with hm | hm | hm | hm
          · exact s1.gates g hgs r row hm
          · have h' := addOps_enable hm
            rcases gates_cases hgs with h | ⟨h, hgg⟩ | ⟨h, -⟩
            · exact absurd (h.symm.trans h') d1
            · exact s2.gates g hgg r row hm
            · exact absurd (h'.symm.trans h) d3
          · have hr : g.1 ∈ Merkle.rangeSels cfg.lookup := by
              rcases (hen3 _ _ _ hm).1 with h | h
              · exact h ▸ hls
              · exact h ▸ hrs
            rcases gates_cases hgs with h | ⟨h, -⟩ | ⟨h, -⟩
            · exact absurd (h ▸ hr) u1
            · exact absurd (h ▸ hr) u2
            · exact absurd (h ▸ hr) u3
          · exact absurd (e4 _ _ _ hm).1 hne
    · intro x y hm
      simp only [List.mem_append, List.not_mem_nil, or_false] at hm
      rcases hm with hm | hm | hm | hm
      · exact s1.equal x y hm
      · exact s2.equal x y hm
      · exact s3.equal x y hm
      · rw [ho4] at hm
        simp only [canonOps, List.mem_cons, List.not_mem_nil, or_false, Op.equal.injEq,
          reduceCtorEq, false_or] at hm
        rcases hm with ⟨rfl, rfl⟩ | ⟨rfl, rfl⟩ | ⟨rfl, rfl⟩ | ⟨rfl, rfl⟩ | ⟨rfl, rfl⟩ | ⟨rfl, rfl⟩
        · rw [hzc 0 (by decide)]; exact g1
        · rw [hzc 84 (by decide)]; exact g2
        · rw [hc0c]; exact g3
        · rw [hz13c]; exact g6
        · rw [hzc 44 (by decide)]; exact g7
        · rw [hzc 43 (by decide)]; exact g8
    · intro x y hm
      simp only [List.mem_append, List.not_mem_nil, or_false] at hm
      rcases hm with hm | hm | hm | hm
      · exact s1.const x y hm
      · exact s2.const x y hm
      · exact s3.const x y hm
      · rw [ho4] at hm
        simp [canonOps] at hm
    · intro reg
      by_cases hreg : reg = n + 1 + 1
      · subst hreg
        refine hl3 _ (fun op h => by simp [h]) fun s row h => ?_
        simp only [List.mem_append, List.not_mem_nil, or_false] at h
        rcases h with h | h | h | h
        · have := e1 _ _ _ h; omega
        · have := e2 _ _ _ h; omega
        · exact h
        · have := e4 _ _ _ h; omega
      · intro row
        refine LookupRange.lookup_off _ _ (LookupRange.selectors_off fun h => ?_)
        simp only [List.mem_append, List.not_mem_nil, or_false] at h
        rcases h with h | h | h | h
        · rcases hen _ _ _ h with h' | h'
          · exact u1 (h' ▸ hls)
          · exact u3 (h' ▸ hls)
        · exact u2 (addOps_enable h ▸ hls)
        · exact hreg (hen3 _ _ _ h).2
        · exact t4 ((e4 _ _ _ h).1 ▸ hls)

end BaseFieldElem

end Verif.MulFixed
