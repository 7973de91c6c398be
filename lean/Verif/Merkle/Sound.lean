import Verif.Merkle.Spec

/-!
# Soundness of the Merkle chip
-/

namespace Verif.Merkle

open Verif.Region Verif.Ecc Verif.Utilities Verif.Sinsemilla

variable {C S : Type} {p : ℕ} [Fact p.Prime] {b : ZMod p}

/-! ## The parts of the chip stay in their regions -/

theorem bitrangeOf_local (value : ZMod p) (start stop : ℕ) :
    Local (bitrangeOf value start stop : M C S (ZMod p) _) :=
  Local.unwrap.bind fun _ => Local.pure _

theorem witnessShort_local (cfg : LookupRange.Config C S) (value : ZMod p) (start stop : ℕ) :
    Local (witnessShort cfg value start stop) :=
  Local.assert.bind fun _ => Local.unwrap.bind fun _ =>
    Local.bind (LookupRange.witnessShortCheck_local _ _ _ _) fun _ => Local.pure _

theorem fromSubpieces_local (cfg : Sinsemilla.Config C S) (subpieces : List (ZMod p × ℕ)) :
    Local (fromSubpieces cfg subpieces) :=
  Local.unwrap.bind fun _ => Local.assert.bind fun _ => witnessMessagePiece_local _ _ _ _ _

theorem messageFrom_local (maxWords : ℕ) (pieces : List (Piece C (ZMod p))) :
    Local (messageFrom maxWords pieces : M C S (ZMod p) _) :=
  Local.assert.bind fun _ => Local.pure _

theorem checkDecomposition_local (cfg : Config C S) (l : ℕ) (a b c : Piece C (ZMod p))
    (left right z1a z1b b1 b2 : ACell C (ZMod p)) :
    Local (checkDecomposition cfg l a b c left right z1a z1b b1 b2) :=
  Local.assignRegion fun _ => Acts.enable.bind fun _ => Acts.assignAdviceFromConstant.bind fun _ =>
    Acts.copyAdvice.bind fun _ => Acts.copyAdvice.bind fun _ => Acts.copyAdvice.bind fun _ =>
    Acts.copyAdvice.bind fun _ => Acts.copyAdvice.bind fun _ => Acts.copyAdvice.bind fun _ =>
    Acts.copyAdvice.bind fun _ => Acts.copyAdvice.bind fun _ => Acts.copyAdvice.bind fun _ =>
      Acts.pure _

/-- `hash_layer` after the pieces: the hash and the check of the decomposition. -/
noncomputable def finish (gens : ℕ → ZMod p × ZMod p) (cfg : Config C S) (Q : Pt b) (l : ℕ)
    (left right : ACell C (ZMod p)) (a b c : Piece C (ZMod p)) (b1 b2 : ACell C (ZMod p)) :
    M C S (ZMod p) (ACell C (ZMod p)) := do
  let message ← messageFrom 253 [a, b, c]
  let r ← hashToPoint 256 10 gens cfg.sins Q message
  let z1a ← unwrap (r.2[0]?.bind (·[1]?))
  let z1b ← unwrap (r.2[1]?.bind (·[1]?))
  checkDecomposition cfg l a b c left right z1a z1b b1 b2
  pure r.1.x

theorem finish_local (gens : ℕ → ZMod p × ZMod p) (cfg : Config C S) (Q : Pt b) (l : ℕ)
    (left right : ACell C (ZMod p)) (a b c : Piece C (ZMod p)) (b1 b2 : ACell C (ZMod p)) :
    Local (finish gens cfg Q l left right a b c b1 b2) :=
  Local.bind (messageFrom_local _ _) fun _ => Local.bind (hashToPoint_local _ _ _ _ _ _) fun _ =>
    Local.unwrap.bind fun _ => Local.unwrap.bind fun _ =>
      Local.bind (checkDecomposition_local _ _ _ _ _ _ _ _ _ _ _) fun _ => Local.pure _

theorem hashLayer_local (gens : ℕ → ZMod p × ZMod p) (cfg : Config C S) (Q : Pt b) (l : ℕ)
    (left right : ACell C (ZMod p)) : Local (hashLayer gens cfg Q l left right) :=
  Local.bind (bitrangeOf_local _ _ _) fun _ => Local.bind (bitrangeOf_local _ _ _) fun _ =>
    Local.bind (fromSubpieces_local _ _) fun _ => Local.bind (bitrangeOf_local _ _ _) fun _ =>
    Local.bind (witnessShort_local _ _ _ _) fun _ => Local.bind (witnessShort_local _ _ _ _) fun _ =>
    Local.bind (fromSubpieces_local _ _) fun _ => Local.bind (bitrangeOf_local _ _ _) fun _ =>
    Local.bind (fromSubpieces_local _ _) fun _ => finish_local _ _ _ _ _ _ _ _ _ _ _

theorem layers_local (gens : ℕ → ZMod p × ZMod p) (chips : ℕ → Option (Config C S)) (Q : Pt b)
    (l : ℕ) (node : ACell C (ZMod p)) (path : List (ZMod p × Bool)) :
    Local (layers gens chips Q l node path) := by
  induction path generalizing l node with
  | nil => exact Local.pure _
  | cons s rest ih =>
    exact Local.unwrap.bind fun _ => Local.bind (CondSwap.swap_local _ _ _) fun _ =>
      Local.bind (hashLayer_local _ _ _ _ _ _) fun _ => ih _ _

/-! ## Soundness -/

/-- An assignment meets the constraints and lookups of a chip. -/
structure SatChip (gen : ℕ → Pt b) (cfg : Config C S) (G : Grid C (ZMod p))
    (tot : List (Op C S (ZMod p))) : Prop where
  sat : Sat (gates cfg) G tot
  hash : ∀ reg, SatLookup (Sinsemilla.lookup 10 (fun w => enc (gen w)) cfg.sins) G tot reg
  range : ∀ reg, SatLookup (LookupRange.lookup 10 cfg.sins.range) G tot reg

theorem SatChip.sins {gen : ℕ → Pt b} {cfg : Config C S} {G : Grid C (ZMod p)}
    {tot : List (Op C S (ZMod p))} (h : SatChip gen cfg G tot) :
    Sat (Sinsemilla.gates cfg.sins) G tot :=
  ⟨fun g hg => h.sat.gates g (by simp [gates, hg]), h.sat.equal, h.sat.const, h.sat.fixed⟩

theorem SatChip.swap {gen : ℕ → Pt b} {cfg : Config C S} {G : Grid C (ZMod p)}
    {tot : List (Op C S (ZMod p))} (h : SatChip gen cfg G tot) :
    Sat (CondSwap.gates cfg.condSwap) G tot :=
  ⟨fun g hg => h.sat.gates g (by simp [gates, hg]), h.sat.equal, h.sat.const, h.sat.fixed⟩

theorem SatChip.bitshift {gen : ℕ → Pt b} {cfg : Config C S} {G : Grid C (ZMod p)}
    {tot : List (Op C S (ZMod p))} (h : SatChip gen cfg G tot) :
    Sat (LookupRange.gates 10 cfg.sins.range) G tot :=
  ⟨fun g hg => h.sat.gates g (by simp [gates, hg]), h.sat.equal, h.sat.const, h.sat.fixed⟩

theorem witnessShort_sound (hp : 2 ^ 20 ≤ p) {gen : ℕ → Pt b} {cfg : Config C S}
    (hd : cfg.sins.range.Distinct) {value : ZMod p} {start stop n n' : ℕ}
    {out : ACell C (ZMod p) × ℕ} {ops tot : List (Op C S (ZMod p))}
    (h : witnessShort cfg.sins.range value start stop n = some (out, n', ops))
    (hpart : PartOf ops tot n n') {G : Grid C (ZMod p)} (hs : SatChip gen cfg G tot) :
    out.2 = stop - start ∧ (G.at out.1.cell).val < 2 ^ (stop - start) := by
  unfold witnessShort at h
  obtain ⟨_, n1, o1, o1', h1, k1, rfl⟩ := bind_some h
  obtain ⟨hlt, rfl, rfl⟩ := assert_some h1
  obtain ⟨w, n2, o2, o2', h2, k2, rfl⟩ := bind_some k1
  obtain ⟨-, rfl, rfl⟩ := unwrap_some h2
  obtain ⟨el, n3, o3, o3', h3, k3, rfl⟩ := bind_some k2
  cases k3
  obtain ⟨el', ops', hrun, -, hsound, -⟩ := LookupRange.witnessShortCheck_spec hd (value := w)
    (s := stop - start) (n := n2) (by omega) (K := 10) (by simpa using hp) (by omega)
  rw [hrun] at h3
  cases h3
  simp only [List.nil_append, List.append_nil] at hpart
  refine ⟨rfl, hsound G (hs.bitshift.mono (fun _ h => h) hpart.sub) ?_⟩
  exact (hpart.lookup le_rfl (by omega) _ G).1 (hs.range _)

theorem fromSubpieces_words {cfg : Sinsemilla.Config C S} {subpieces : List (ZMod p × ℕ)} {n n' : ℕ}
    {out : Piece C (ZMod p)} {ops : List (Op C S (ZMod p))}
    (h : fromSubpieces cfg subpieces n = some (out, n', ops)) :
    ∃ v t, concat 0 0 subpieces = some (v, t) ∧ out.numWords = t / 10 := by
  unfold fromSubpieces at h
  obtain ⟨v, n2, o2, o2', h2, k2, rfl⟩ := bind_some h
  obtain ⟨hw, rfl, rfl⟩ := unwrap_some h2
  obtain ⟨_, n1, o1, o1', h1, k1, rfl⟩ := bind_some k2
  unfold witnessMessagePiece at k1
  obtain ⟨_, n3, o3, o3', h3, k3, rfl⟩ := bind_some k1
  obtain ⟨_, n4, o4, o4', h4, k4, rfl⟩ := bind_some k3
  cases k4
  exact ⟨_, _, hw, rfl⟩

/-- The operations of the decomposition check. -/
def decompOps (cfg : Config C S) (l : ℕ) (a b c : Piece C (ZMod p))
    (left right z1a z1b b1 b2 : ACell C (ZMod p)) (n : ℕ) : List (Op C S (ZMod p)) :=
  let cp (x : ACell C (ZMod p)) (i : Fin 5) (row : ℤ) : List (Op C S (ZMod p)) :=
    [.advice ⟨n, cfg.advices i, row⟩ x.value, .equal ⟨n, cfg.advices i, row⟩ x.cell]
  [.enable cfg.qDecompose n 0, .advice ⟨n, cfg.advices 4, 1⟩ l, .const ⟨n, cfg.advices 4, 1⟩ l] ++
    (cp a.cell 0 0 ++ (cp b.cell 1 0 ++ (cp c.cell 2 0 ++ (cp left 3 0 ++ (cp right 4 0 ++
    (cp z1a 0 1 ++ (cp z1b 1 1 ++ (cp b1 2 1 ++ cp b2 3 1))))))))

theorem checkDecomposition_run (cfg : Config C S) (l : ℕ) (a b c : Piece C (ZMod p))
    (left right z1a z1b b1 b2 : ACell C (ZMod p)) (n : ℕ) :
    checkDecomposition cfg l a b c left right z1a z1b b1 b2 n
      = some ((), n + 1, decompOps cfg l a b c left right z1a z1b b1 b2 n) := rfl

theorem checkDecomposition_sound {cfg : Config C S} {l : ℕ} {a b c : Piece C (ZMod p)}
    {left right z1a z1b b1 b2 : ACell C (ZMod p)} {n : ℕ} {tot : List (Op C S (ZMod p))}
    (hsub : ∀ op ∈ decompOps cfg l a b c left right z1a z1b b1 b2 n, op ∈ tot)
    {G : Grid C (ZMod p)} (hs : Sat (gates cfg) G tot) :
    G.at a.cell.cell = l + 2 ^ 10 * G.at z1a.cell ∧
    G.at left.cell = G.at z1a.cell
      + 2 ^ 240 * (G.at b.cell.cell - 2 ^ 10 * G.at z1b.cell + 2 ^ 10 * G.at b1.cell) ∧
    G.at right.cell = G.at b2.cell + 2 ^ 5 * G.at c.cell.cell ∧
    G.at z1b.cell = G.at b1.cell + 2 ^ 5 * G.at b2.cell := by
  have hg := hs.gates (cfg.qDecompose, _) (List.mem_cons_self ..) n 0 (hsub _ (by simp [decompOps]))
  have hl := hs.const ⟨n, cfg.advices 4, 1⟩ l (hsub _ (by simp [decompOps]))
  have he : ∀ x i row, Op.equal ⟨n, cfg.advices i, row⟩ x ∈
      decompOps cfg l a b c left right z1a z1b b1 b2 n → G n (cfg.advices i) row = G.at x :=
    fun x i row h => hs.equal _ _ (hsub _ h)
  have e1 := he a.cell.cell 0 0 (by simp [decompOps])
  have e2 := he b.cell.cell 1 0 (by simp [decompOps])
  have e3 := he c.cell.cell 2 0 (by simp [decompOps])
  have e4 := he left.cell 3 0 (by simp [decompOps])
  have e5 := he right.cell 4 0 (by simp [decompOps])
  have e6 := he z1a.cell 0 1 (by simp [decompOps])
  have e7 := he z1b.cell 1 1 (by simp [decompOps])
  have e8 := he b1.cell 2 1 (by simp [decompOps])
  have e9 := he b2.cell 3 1 (by simp [decompOps])
  change G n (cfg.advices 4) 1 = l at hl
  simp only [decompGate, Grid.query, zero_add, List.mem_cons, List.not_mem_nil, or_false,
    forall_eq_or_imp, forall_eq, e1, e2, e3, e4, e5, e6, e7, e8, e9, hl] at hg
  obtain ⟨g1, g2, g3, g4⟩ := hg
  refine ⟨by linear_combination g1, ?_, by linear_combination -g3, by linear_combination g4⟩
  have e240 : (2 : ZMod p) ^ 240 = (2 ^ 120) ^ 2 := by rw [← pow_mul]
  rw [e240]
  linear_combination -g2

/-- The words of the pieces are those of the message. -/
theorem decomp_arith (hp : 2 ^ 250 ≤ p) {l : ℕ} (hl : l < p) {wa wb wc : List ℕ}
    (la : wa.length = 25) (lb : wb.length = 2) (lc : wc.length = 25) (ha : ∀ w ∈ wa, w < 2 ^ 10)
    (hb : ∀ w ∈ wb, w < 2 ^ 10) (hc : ∀ w ∈ wc, w < 2 ^ 10) {b1 b2 left right : ZMod p}
    (hb1 : b1.val < 2 ^ 5) (hb2 : b2.val < 2 ^ 5)
    (e1 : ((Nat.ofDigits (2 ^ 10) wa : ℕ) : ZMod p)
      = l + 2 ^ 10 * ((Nat.ofDigits (2 ^ 10) (wa.drop 1) : ℕ) : ZMod p))
    (e2 : left = ((Nat.ofDigits (2 ^ 10) (wa.drop 1) : ℕ) : ZMod p) + 2 ^ 240 *
      (((Nat.ofDigits (2 ^ 10) wb : ℕ) : ZMod p)
        - 2 ^ 10 * ((Nat.ofDigits (2 ^ 10) (wb.drop 1) : ℕ) : ZMod p) + 2 ^ 10 * b1))
    (e3 : right = b2 + 2 ^ 5 * ((Nat.ofDigits (2 ^ 10) wc : ℕ) : ZMod p))
    (e4 : ((Nat.ofDigits (2 ^ 10) (wb.drop 1) : ℕ) : ZMod p) = b1 + 2 ^ 5 * b2) :
    l < 2 ^ 10 ∧ ∃ ls rs : ℕ, ls < 2 ^ 255 ∧ rs < 2 ^ 255 ∧ (ls : ZMod p) = left ∧
      (rs : ZMod p) = right ∧ wa ++ (wb ++ wc) = crhWords l ls rs := by
  have hbig : 2 ^ 10 * 2 ^ 10 ≤ p := le_trans (by rw [← pow_add]; exact Nat.pow_le_pow_right (by omega) (by omega)) hp
  have hlt : ∀ ws : List ℕ, (∀ w ∈ ws, w < 2 ^ 10) →
      Nat.ofDigits (2 ^ 10) ws < 2 ^ (10 * ws.length) := by
    intro ws h
    rw [pow_mul]
    exact Nat.ofDigits_lt_base_pow_length (by norm_num) h
  obtain ⟨w0, wa', rfl⟩ := List.exists_cons_of_length_pos (l := wa) (by omega)
  obtain ⟨b0, B1, rfl⟩ := List.length_eq_two.1 lb
  rw [List.length_cons] at la
  have hw0 := ha w0 (by simp)
  have hb0 := hb b0 (by simp)
  have hB1 := hb B1 (by simp)
  have hA1 := hlt wa' fun w h => ha w (by simp [h])
  have hC := hlt wc hc
  rw [lc] at hC
  rw [show wa'.length = 24 by omega] at hA1
  simp only [List.drop_succ_cons, List.drop_zero, Nat.ofDigits_cons, Nat.ofDigits_nil, mul_zero,
    add_zero] at e1 e2 e4
  obtain ⟨x1, hx1, rfl⟩ : ∃ x : ℕ, x < 2 ^ 5 ∧ b1 = x := ⟨b1.val, hb1, (ZMod.natCast_zmod_val b1).symm⟩
  obtain ⟨x2, hx2, rfl⟩ : ∃ x : ℕ, x < 2 ^ 5 ∧ b2 = x := ⟨b2.val, hb2, (ZMod.natCast_zmod_val b2).symm⟩
  have f1 : w0 = l := by
    refine LookupRange.cast_inj (p := p) (by omega) hl ?_
    push_cast at e1
    linear_combination e1
  subst f1
  have f2 : B1 = x1 + 2 ^ 5 * x2 := by
    refine LookupRange.cast_inj (p := p) (by omega) (by omega) ?_
    push_cast
    linear_combination e4
  have hall : ∀ w ∈ (w0 :: wa') ++ ([b0, B1] ++ wc), w < 2 ^ 10 := by
    intro w h
    rcases List.mem_append.1 h with h | h
    · exact ha w h
    · rcases List.mem_append.1 h with h | h
      · exact hb w h
      · exact hc w h
  have hws := eq_digitsOf _ hall
  generalize hA : Nat.ofDigits (2 ^ 10) wa' = A1 at *
  generalize hCv : Nat.ofDigits (2 ^ 10) wc = C1 at *
  have p240 : 2 ^ (10 * 24) = 2 ^ 240 := by norm_num
  have p250 : 2 ^ (10 * 25) = 2 ^ 10 * 2 ^ 240 := by rw [← pow_add]
  have p255 : 2 ^ 255 = 2 ^ 5 * 2 ^ 10 * 2 ^ 240 := by rw [← pow_add, ← pow_add]
  have hls : A1 + 2 ^ 240 * (b0 + 2 ^ 10 * x1) < 2 ^ 255 := by
    rw [p255]
    rw [p240] at hA1
    generalize 2 ^ 240 = P at *
    have : b0 + 2 ^ 10 * x1 + 1 ≤ 2 ^ 5 * 2 ^ 10 := by omega
    nlinarith
  have hrs : x2 + 2 ^ 5 * C1 < 2 ^ 255 := by
    rw [p255]
    rw [p250] at hC
    generalize 2 ^ 240 = P at *
    omega
  refine ⟨hw0, A1 + 2 ^ 240 * (b0 + 2 ^ 10 * x1), x2 + 2 ^ 5 * C1, hls, hrs, ?_, ?_, ?_⟩
  · rw [e2]
    push_cast
    ring
  · rw [e3]
    push_cast
    ring
  · rw [crhWords_eq hw0 hls, hws]
    have hlen : ((w0 :: wa') ++ ([b0, B1] ++ wc)).length = 52 := by
      simp only [List.length_append, List.length_cons, List.length_nil]; omega
    rw [hlen]
    congr 1
    rw [Nat.ofDigits_append, Nat.ofDigits_append, Nat.ofDigits_cons, Nat.ofDigits_cons,
      Nat.ofDigits_singleton, hA, hCv, List.length_cons, show wa'.length + 1 = 25 by omega, lb, f2,
      show 2 ^ 265 = 2 ^ 25 * 2 ^ 240 by rw [← pow_add]]
    ring

/-- Splits a program into the ones it is made of. -/
local macro "locality" : tactic =>
  `(tactic| repeat' first
    | exact bitrangeOf_local _ _ _ | exact witnessShort_local _ _ _ _ | exact fromSubpieces_local _ _
    | exact finish_local _ _ _ _ _ _ _ _ _ _ _ | exact hashToPoint_local _ _ _ _ _ _
    | exact checkDecomposition_local _ _ _ _ _ _ _ _ _ _ _ | exact messageFrom_local _ _
    | exact Local.unwrap | exact Local.assert | exact Local.pure _
    | refine Local.bind ?_ fun _ => ?_)

theorem finish_sound (hg : Good b) (hp : 2 ^ 250 ≤ p) {gen : ℕ → Pt b}
    (hgen0 : ∀ w < 2 ^ 10, gen w ≠ 0) {cfg : Config C S} {Q : Pt b}
    {l : ℕ} (hl : l < p) {left right : ACell C (ZMod p)} {pa pb pc : Piece C (ZMod p)}
    (na : pa.numWords = 25) (nb : pb.numWords = 2) (nc : pc.numWords = 25)
    {b1 b2 : ACell C (ZMod p)} {n n' : ℕ} {out : ACell C (ZMod p)}
    {ops tot : List (Op C S (ZMod p))}
    (h : finish (fun w => enc (gen w)) cfg Q l left right pa pb pc b1 b2 n = some (out, n', ops))
    (hpart : PartOf ops tot n n') {G : Grid C (ZMod p)} (hs : SatChip gen cfg G tot)
    (hb1 : (G.at b1.cell).val < 2 ^ 5) (hb2 : (G.at b2.cell).val < 2 ^ 5) :
    Crh gen Q l (G.at left.cell) (G.at right.cell) (G.at out.cell) := by
  unfold finish at h
  obtain ⟨msg, n1, o1, o1', h1, k1, rfl⟩ := bind_some h
  have hmsg : msg = [pa, pb, pc] ∧ n1 = n ∧ o1 = [] := by
    unfold messageFrom at h1
    obtain ⟨_, m1, p1, p1', j1, j2, rfl⟩ := bind_some h1
    obtain ⟨-, rfl, rfl⟩ := assert_some j1
    cases j2
    exact ⟨rfl, rfl, rfl⟩
  obtain ⟨rfl, rfl, rfl⟩ := hmsg
  obtain ⟨r, n2, o2, o2', h2, k2, rfl⟩ := bind_some k1
  obtain ⟨q2, q3⟩ := PartOf.bind (by locality) (by locality) h2 k2 hpart
  obtain ⟨z1a, n3, o3, o3', h3, k3, rfl⟩ := bind_some k2
  obtain ⟨hza, rfl, rfl⟩ := unwrap_some h3
  obtain ⟨z1b, n4, o4, o4', h4, k4, rfl⟩ := bind_some k3
  obtain ⟨hzb, rfl, rfl⟩ := unwrap_some h4
  obtain ⟨_, n5, o5, o5', h5, k5, rfl⟩ := bind_some k4
  cases k5
  rw [checkDecomposition_run] at h5
  cases h5
  obtain ⟨c1, c2, c3, c4⟩ := checkDecomposition_sound (cfg := cfg) (n := n4)
    (l := l) (a := pa) (b := pb) (c := pc) (left := left) (right := right) (z1a := z1a) (z1b := z1b)
    (b1 := b1) (b2 := b2) (fun op ho => q3.sub op (by simpa using ho)) hs.sat
  obtain ⟨wss, w1, w2, w3, w4⟩ := hashToPoint_sound hg (by norm_num) hgen0 (by simp) h2 q2.sub hs.sins
    (hs.hash _)
  simp only [List.length_cons, List.length_nil] at w1 w2
  obtain ⟨wa, wb, wc, rfl⟩ := List.length_eq_three.1 w1
  obtain ⟨za, zb, zc, hz⟩ := List.length_eq_three.1 w2
  rw [hz] at w3 hza hzb
  have da := w3 0 (by simp) (by simp) (by simp)
  have db := w3 1 (by simp) (by simp) (by simp)
  have dc := w3 2 (by simp) (by simp) (by simp)
  simp only [List.getElem_cons_zero, List.getElem_cons_succ] at da db dc
  simp only [List.getElem?_cons_zero, List.getElem?_cons_succ, Option.bind_some] at hza hzb
  obtain ⟨ia, hza⟩ := List.getElem?_eq_some_iff.1 hza
  obtain ⟨ib, hzb⟩ := List.getElem?_eq_some_iff.1 hzb
  have ea := da.zs 1 ia
  have eb := db.zs 1 ib
  rw [hza] at ea
  rw [hzb] at eb
  rw [da.value, ea] at c1
  rw [ea, db.value, eb] at c2
  rw [dc.value] at c3
  rw [eb] at c4
  obtain ⟨r1, ls, rs, r2, r3, r4, r5, r6⟩ := decomp_arith hp hl (da.length.trans na)
    (db.length.trans nb) (dc.length.trans nc) da.lt db.lt dc.lt hb1 hb2 c1 c2 c3 c4
  refine ⟨r1, ls, rs, r2, r3, r4, r5, ?_⟩
  rw [← r6]
  rw [show [wa, wb, wc].flatten = wa ++ (wb ++ wc) by simp] at w4
  rcases w4 with w4 | ⟨R, w4, w5⟩
  · exact Or.inl w4
  · exact Or.inr ⟨R, w4, (congrArg Prod.fst w5).symm⟩

/-- **C60**, soundness of `hash_layer`: whatever the assignment, if it meets the constraints and
lookups of a circuit that contains the regions of `hash_layer`, then the output cell holds the hash
`MerkleCRH(l, left, right)` of the contents of the cells `left` and `right`, for some encoding of them
with 255 bits, unless a collision of Sinsemilla is met. -/
theorem hashLayer_sound (hg : Good b) (hp : 2 ^ 250 ≤ p) {gen : ℕ → Pt b}
    (hgen0 : ∀ w < 2 ^ 10, gen w ≠ 0) {cfg : Config C S} (hd : cfg.sins.range.Distinct) {Q : Pt b}
    {l : ℕ} (hl : l < p) {left right : ACell C (ZMod p)} {n n' : ℕ} {out : ACell C (ZMod p)}
    {ops tot : List (Op C S (ZMod p))}
    (h : hashLayer (fun w => enc (gen w)) cfg Q l left right n = some (out, n', ops))
    (hpart : PartOf ops tot n n') {G : Grid C (ZMod p)} (hs : SatChip gen cfg G tot) :
    Crh gen Q l (G.at left.cell) (G.at right.cell) (G.at out.cell) := by
  have hp20 : 2 ^ 20 ≤ p := le_trans (Nat.pow_le_pow_right (by omega) (by omega)) hp
  have range_num : ∀ {x : ZMod p} {s t n n' : ℕ} {r : ZMod p × ℕ} {o : List (Op C S (ZMod p))},
      bitrangeOf x s t n = some (r, n', o) → r.2 = t - s ∧ n' = n ∧ o = [] := by
    intro x s t n n' r o h
    unfold bitrangeOf at h
    obtain ⟨v, m1, p1, p1', j1, j2, rfl⟩ := bind_some h
    obtain ⟨-, rfl, rfl⟩ := unwrap_some j1
    cases j2
    exact ⟨rfl, rfl, rfl⟩
  unfold hashLayer at h
  obtain ⟨⟨a0, l0⟩, n1, o1, o1', h1, k1, rfl⟩ := bind_some h
  obtain ⟨q1, r1⟩ := PartOf.bind (by locality) (by locality) h1 k1 hpart
  obtain ⟨⟨a1, l1⟩, n2, o2, o2', h2, k2, rfl⟩ := bind_some k1
  obtain ⟨q2, r2⟩ := PartOf.bind (by locality) (by locality) h2 k2 r1
  obtain ⟨pa, n3, o3, o3', h3, k3, rfl⟩ := bind_some k2
  obtain ⟨q3, r3⟩ := PartOf.bind (by locality) (by locality) h3 k3 r2
  obtain ⟨⟨b0, l4⟩, n4, o4, o4', h4, k4, rfl⟩ := bind_some k3
  obtain ⟨q4, r4⟩ := PartOf.bind (by locality) (by locality) h4 k4 r3
  obtain ⟨⟨b1, l5⟩, n5, o5, o5', h5, k5, rfl⟩ := bind_some k4
  obtain ⟨q5, r5⟩ := PartOf.bind (by locality) (by locality) h5 k5 r4
  obtain ⟨⟨b2, l6⟩, n6, o6, o6', h6, k6, rfl⟩ := bind_some k5
  obtain ⟨q6, r6⟩ := PartOf.bind (by locality) (by locality) h6 k6 r5
  obtain ⟨pb, n7, o7, o7', h7, k7, rfl⟩ := bind_some k6
  obtain ⟨q7, r7⟩ := PartOf.bind (by locality) (by locality) h7 k7 r6
  obtain ⟨⟨c0, l8⟩, n8, o8, o8', h8, k8, rfl⟩ := bind_some k7
  obtain ⟨q8, r8⟩ := PartOf.bind (by locality) (by locality) h8 k8 r7
  obtain ⟨pc, n9, o9, o9', h9, k9, rfl⟩ := bind_some k8
  obtain ⟨q9, r9⟩ := PartOf.bind (by locality) (by locality) h9 k9 r8
  obtain ⟨e5, hb1⟩ := witnessShort_sound hp20 hd h5 q5 hs
  obtain ⟨e6, hb2⟩ := witnessShort_sound hp20 hd h6 q6 hs
  have e0 := (range_num h1).1
  have e1 := (range_num h2).1
  have e4 := (range_num h4).1
  have e8 := (range_num h8).1
  simp only at e0 e1 e4 e5 e6 e8
  subst e0 e1 e4 e5 e6 e8
  obtain ⟨v3, t3, u3, w3⟩ := fromSubpieces_words h3
  obtain ⟨v7, t7, u7, w7⟩ := fromSubpieces_words h7
  obtain ⟨v9, t9, u9, w9⟩ := fromSubpieces_words h9
  simp [concat] at u3 u7 u9
  rw [← u3.2] at w3
  rw [← u7.2] at w7
  rw [← u9.2] at w9
  exact finish_sound hg hp hgen0 hl w3 w7 w9 k9 r9 hs hb1 hb2

/-- The layers of a path. -/
theorem layers_sound (hg : Good b) (hp : 2 ^ 250 ≤ p) {gen : ℕ → Pt b}
    (hgen0 : ∀ w < 2 ^ 10, gen w ≠ 0) {chips : ℕ → Option (Config C S)} {Q : Pt b}
    {path : List (ZMod p × Bool)} {l : ℕ} (hl : l + path.length ≤ p) {node : ACell C (ZMod p)}
    {n n' : ℕ} {out : ACell C (ZMod p)} {ops tot : List (Op C S (ZMod p))}
    (h : layers (fun w => enc (gen w)) chips Q l node path n = some (out, n', ops))
    (hpart : PartOf ops tot n n') {G : Grid C (ZMod p)}
    (hd : ∀ i cfg, chips i = some cfg → cfg.sins.range.Distinct)
    (hs : ∀ i cfg, chips i = some cfg → SatChip gen cfg G tot) :
    ∃ path' : List (ZMod p × Bool), path'.length = path.length ∧
      Root gen Q l (G.at node.cell) path' (G.at out.cell) := by
  induction path generalizing l node n ops with
  | nil =>
    cases h
    exact ⟨[], rfl, rfl⟩
  | cons s rest ih =>
    obtain ⟨sibling, pos⟩ := s
    rw [List.length_cons] at hl
    unfold layers at h
    obtain ⟨cfg, n1, o1, o1', h1, k1, rfl⟩ := bind_some h
    obtain ⟨hc, rfl, rfl⟩ := unwrap_some h1
    obtain ⟨pair, n2, o2, o2', h2, k2, rfl⟩ := bind_some k1
    obtain ⟨q2, r2⟩ := PartOf.bind (CondSwap.swap_local _ _ _)
      (Local.bind (hashLayer_local _ _ _ _ _ _) fun _ => layers_local _ _ _ _ _ _) h2 k2 hpart
    obtain ⟨next, n3, o3, o3', h3, k3, rfl⟩ := bind_some k2
    obtain ⟨q3, r3⟩ := PartOf.bind (hashLayer_local _ _ _ _ _ _) (layers_local _ _ _ _ _ _) h3 k3 r2
    have hcrh := hashLayer_sound hg hp hgen0 (hd l cfg hc) (by omega) h3 q3 (hs l cfg hc)
    obtain ⟨path', hlen, hroot⟩ := ih (by omega) k3 r3
    rcases CondSwap.swap_sound _ _ _ h2 G ((hs l cfg hc).swap.mono (fun _ h => h) q2.sub) with
      ⟨-, e1, e2⟩ | ⟨-, e1, e2⟩
    · refine ⟨(G.at pair.1.cell, true) :: path', by simp [hlen], G.at next.cell, ?_, hroot⟩
      simpa [← e2] using hcrh
    · refine ⟨(G.at pair.2.cell, false) :: path', by simp [hlen], G.at next.cell, ?_, hroot⟩
      simpa [← e1] using hcrh

/-- **C60**, soundness of `calculate_root`: whatever the assignment, if it meets the constraints and
lookups of all the chips in a circuit that contains the regions of `calculate_root`, then there are
siblings and bits of a position, as many as in the path given, which lead from the contents of the
cell of the leaf to the contents of the output cell. -/
theorem calculateRoot_sound (hg : Good b) (hp : 2 ^ 250 ≤ p) {gen : ℕ → Pt b}
    (hgen0 : ∀ w < 2 ^ 10, gen w ≠ 0) {chips : List (Config C S)} {Q : Pt b} {leafPos : ℕ}
    {path : List (ZMod p)} {leaf out : ACell C (ZMod p)} {n n' : ℕ}
    {ops tot : List (Op C S (ZMod p))}
    (h : calculateRoot (fun w => enc (gen w)) chips Q leafPos path leaf n = some (out, n', ops))
    (hpart : PartOf ops tot n n') {G : Grid C (ZMod p)} (hd : ∀ cfg ∈ chips, cfg.sins.range.Distinct)
    (hs : ∀ cfg ∈ chips, SatChip gen cfg G tot) :
    ∃ path' : List (ZMod p × Bool), path'.length = path.length ∧
      Root gen Q 0 (G.at leaf.cell) path' (G.at out.cell) := by
  unfold calculateRoot at h
  obtain ⟨_, n1, o1, o1', h1, k1, rfl⟩ := bind_some h
  obtain ⟨-, rfl, rfl⟩ := assert_some h1
  obtain ⟨pos, n2, o2, o2', h2, k2, rfl⟩ := bind_some k1
  obtain ⟨hpos, rfl, rfl⟩ := unwrap_some h2
  unfold i2lebsp at hpos
  split_ifs at hpos with hlen
  cases hpos
  have hz : (path.zip ((List.range path.length).map fun i => (leafPos &&& 2 ^ i) != 0)).length
      = path.length := by simp
  have hp64 : 64 ≤ p := le_trans (by
    have : 2 ^ 6 ≤ 2 ^ 250 := Nat.pow_le_pow_right (by omega) (by omega)
    omega) hp
  rw [← hz]
  exact layers_sound hg hp hgen0 (by rw [hz]; omega) k2 hpart
    (fun i cfg hc => hd cfg (List.mem_of_getElem? hc)) (fun i cfg hc => hs cfg (List.mem_of_getElem? hc))

end Verif.Merkle
