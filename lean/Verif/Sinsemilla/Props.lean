import Verif.Sinsemilla.Complete

/-!
# Sinsemilla: hashing to a point in a circuit (C58)
-/

namespace Verif.Sinsemilla

open Verif.Region Verif.Ecc Verif.Utilities Verif.RunningSum Verif.Mul

variable {C S : Type} {p : ℕ} [Fact p.Prime] {b : ZMod p}

/-! ## Initialization -/

/-- The first row of the hash. -/
def initRow (cfg : Config C S) : ℕ := if cfg.allowPrivate then 1 else 0

def publicOps (cfg : Config C S) (reg : ℕ) (Q : Pt b) : List (Op C S (ZMod p)) :=
  if cfg.allowPrivate then
    [.enable cfg.qS4 reg 1, .advice ⟨reg, cfg.da.xP, 0⟩ (enc Q).2, .const ⟨reg, cfg.da.xP, 0⟩ (enc Q).2,
      .advice ⟨reg, cfg.da.xA, 1⟩ (enc Q).1, .const ⟨reg, cfg.da.xA, 1⟩ (enc Q).1]
  else
    [.enable cfg.qS4 reg 0, .fixed ⟨reg, cfg.fixedYQ, 0⟩ (enc Q).2,
      .advice ⟨reg, cfg.da.xA, 0⟩ (enc Q).1, .const ⟨reg, cfg.da.xA, 0⟩ (enc Q).1]

theorem publicInit_run (cfg : Config C S) (reg : ℕ) {Q : Pt b} (hQ : Q ≠ 0) (n : ℕ) :
    publicInit cfg reg Q n = some ((initRow cfg, ⟨⟨reg, cfg.da.xA, initRow cfg⟩, (enc Q).1⟩, (enc Q).2),
      n, publicOps cfg reg Q) := by
  unfold publicInit publicOps initRow
  rw [assert_bind hQ]
  cases cfg.allowPrivate <;> rfl

theorem publicInit_some {cfg : Config C S} {reg : ℕ} {Q : Pt b} {n : ℕ} {r}
    (h : publicInit cfg reg Q n = some r) : Q ≠ 0 := by
  unfold publicInit at h
  obtain ⟨_, _, _, _, h1, -⟩ := bind_some h
  exact (assert_some h1).1

/-- The gate on the first row. -/
theorem public_sound {cfg : Config C S} {reg : ℕ} {Q : Pt b} {G : Grid C (ZMod p)}
    {tot : List (Op C S (ZMod p))} (hsub : ∀ op ∈ publicOps cfg reg Q, op ∈ tot)
    (hsat : Sat (gates cfg) G tot) :
    enc Q = (G reg cfg.da.xA (initRow cfg), (enc Q).2) ∧
    cfg.da.YA (G.query reg (initRow cfg)) 0 = 2 * (enc Q).2 := by
  have hg := hsat.gates (cfg.qS4, _) (List.mem_cons_self ..) reg (initRow cfg)
  unfold publicOps at hsub
  unfold initRow at hg ⊢
  cases hpv : cfg.allowPrivate with
  | true =>
    simp only [hpv, if_true] at hsub hg ⊢
    have h1 := hg (hsub _ (by simp)) _ (List.mem_singleton.2 rfl)
    have h2 := hsat.const ⟨reg, cfg.da.xP, 0⟩ (enc Q).2 (hsub _ (by simp))
    have h3 := hsat.const ⟨reg, cfg.da.xA, 1⟩ (enc Q).1 (hsub _ (by simp))
    refine ⟨Prod.ext h3.symm rfl, ?_⟩
    have e : G.query reg (1 : ℕ) cfg.da.xP (-1) = (enc Q).2 := h2
    rw [e] at h1
    linear_combination -h1
  | false =>
    simp only [hpv, Bool.false_eq_true, if_false] at hsub hg ⊢
    have h1 := hg (hsub _ (by simp)) _ (List.mem_singleton.2 rfl)
    have h2 := hsat.fixed ⟨reg, cfg.fixedYQ, 0⟩ (enc Q).2 (hsub _ (by simp))
    have h3 := hsat.const ⟨reg, cfg.da.xA, 0⟩ (enc Q).1 (hsub _ (by simp))
    refine ⟨Prod.ext h3.symm rfl, ?_⟩
    have e : G.query reg (0 : ℕ) cfg.fixedYQ 0 = (enc Q).2 := h2
    rw [e] at h1
    linear_combination -h1

def privateOps (cfg : Config C S) (reg : ℕ) (Q : EccPoint C (ZMod p)) : List (Op C S (ZMod p)) :=
  [.enable cfg.qS4 reg 1, .advice ⟨reg, cfg.da.xP, 0⟩ Q.y.value, .equal ⟨reg, cfg.da.xP, 0⟩ Q.y.cell,
    .advice ⟨reg, cfg.da.xA, 1⟩ Q.x.value, .equal ⟨reg, cfg.da.xA, 1⟩ Q.x.cell]

theorem privateInit_run (cfg : Config C S) (reg : ℕ) (Q : EccPoint C (ZMod p))
    (hp : cfg.allowPrivate = true) (n : ℕ) :
    privateInit cfg reg Q n = some ((1, ⟨⟨reg, cfg.da.xA, 1⟩, Q.x.value⟩, Q.y.value),
      n, privateOps cfg reg Q) := by
  unfold privateInit
  rw [assert_bind hp]
  rfl

theorem private_sound {cfg : Config C S} (hpv : cfg.allowPrivate = true) {reg : ℕ}
    {Q : EccPoint C (ZMod p)} {P : Pt b} {G : Grid C (ZMod p)} (hQ : Holds G Q P)
    {tot : List (Op C S (ZMod p))} (hsub : ∀ op ∈ privateOps cfg reg Q, op ∈ tot)
    (hsat : Sat (gates cfg) G tot) :
    enc P = (G reg cfg.da.xA 1, (enc P).2) ∧ cfg.da.YA (G.query reg 1) 0 = 2 * (enc P).2 := by
  have h1 := hsat.gates (cfg.qS4, _) (List.mem_cons_self ..) reg 1
    (hsub _ (by simp [privateOps])) _ (List.mem_singleton.2 rfl)
  have h2 := hsat.equal ⟨reg, cfg.da.xP, 0⟩ _ (hsub _ (by simp [privateOps]; rfl))
  have h3 := hsat.equal ⟨reg, cfg.da.xA, 1⟩ _ (hsub _ (by simp [privateOps]; rfl))
  unfold Holds at hQ
  have e : G.query reg 1 cfg.da.xP (-1) = (enc P).2 := by rw [hQ]; exact h2
  simp only [hpv, if_true] at h1
  rw [e] at h1
  refine ⟨Prod.ext ?_ rfl, by linear_combination -h1⟩
  rw [hQ]
  exact h3.symm

/-! ## Soundness -/

theorem hashToPoint_some {reprBits K : ℕ} {gens : ℕ → ZMod p × ZMod p} {cfg : Config C S} {Q : Pt b}
    {message : List (Piece C (ZMod p))} {n : ℕ} {r}
    (h : hashToPoint reprBits K gens cfg Q message n = some r) :
    Q ≠ 0 ∧ (∀ P ∈ message, PieceOk reprBits K P) ∧
    r = ((hashOut reprBits K gens cfg n (initRow cfg) message (enc Q),
        piecesZs reprBits K cfg n (initRow cfg) message), n + 1,
      publicOps cfg n Q ++ hashOps reprBits K gens cfg n (initRow cfg) message (enc Q)) := by
  unfold hashToPoint assignRegion at h
  obtain ⟨a, m, o⟩ := r
  obtain ⟨a1, n1, o1, o2, h1, h2, rfl⟩ := bind_some h
  have hQ := publicInit_some h1
  rw [publicInit_run cfg n hQ] at h1
  cases h1
  obtain ⟨hok, e⟩ := hashFrom_some rfl h2
  cases e
  exact ⟨hQ, hok, rfl⟩

/-- **C58**, soundness: whatever the assignment, if it meets the gates, copies, constants and lookups
of a circuit that contains the operations of `hash_to_point`, then every piece of the message is the
number with as many `K`-bit words as declared, its running sum is made of the numbers with the last
words, and either the output cells hold the Sinsemilla hash of the words from `Q`, or at some word the
accumulator is exactly the generator about to be added (so that a relation between the generators is
known).  In particular there is no other exceptional case in which the output would be free. -/
theorem hashToPoint_sound {reprBits K : ℕ} (hg : Good b) (hK : 5 ≤ K) {gen : ℕ → Pt b}
    (hgen0 : ∀ w < 2 ^ K, gen w ≠ 0) {cfg : Config C S} {Q : Pt b}
    {message : List (Piece C (ZMod p))} (hne : message ≠ []) {n n' : ℕ} {out}
    {ops : List (Op C S (ZMod p))}
    (h : hashToPoint reprBits K (fun w => enc (gen w)) cfg Q message n = some (out, n', ops))
    {G : Grid C (ZMod p)} {tot : List (Op C S (ZMod p))} (hsub : ∀ op ∈ ops, op ∈ tot)
    (hsat : Sat (gates cfg) G tot)
    (hl : SatLookup (lookup K (fun w => enc (gen w)) cfg) G tot n) :
    Hashes K gen G Q message out.1 out.2 := by
  obtain ⟨hQ, hok, e⟩ := hashToPoint_some h
  cases e
  obtain ⟨e1, e2⟩ := public_sound (fun op ho => hsub op (List.mem_append_left _ ho)) hsat
  exact hashFrom_sound hg hK hgen0 hne hok (fun op ho => hsub op (List.mem_append_right _ ho)) hsat hl
    hQ e1 e2

theorem hashToPointPrivate_some {reprBits K : ℕ} {gens : ℕ → ZMod p × ZMod p} {cfg : Config C S}
    {Q : EccPoint C (ZMod p)} {message : List (Piece C (ZMod p))} {n : ℕ} {r}
    (h : hashToPointPrivate reprBits K gens cfg Q message n = some r) :
    cfg.allowPrivate = true ∧ (∀ P ∈ message, PieceOk reprBits K P) ∧
    r = ((hashOut reprBits K gens cfg n 1 message (Q.x.value, Q.y.value),
        piecesZs reprBits K cfg n 1 message), n + 1,
      privateOps cfg n Q ++ hashOps reprBits K gens cfg n 1 message (Q.x.value, Q.y.value)) := by
  unfold hashToPointPrivate at h
  obtain ⟨a, m, o⟩ := r
  obtain ⟨a0, n0, o0, o0', h0, h', rfl⟩ := bind_some h
  obtain ⟨hp, rfl, rfl⟩ := assert_some h0
  unfold assignRegion at h'
  obtain ⟨a1, n1, o1, o2, h1, h2, rfl⟩ := bind_some h'
  rw [privateInit_run cfg n0 Q hp] at h1
  cases h1
  obtain ⟨hok, e⟩ := hashFrom_some (offset := 1) rfl h2
  cases e
  exact ⟨hp, hok, rfl⟩

/-- **C58**, soundness of `hash_to_point_with_private_init`, where `Q` is in cells: the point they
hold. -/
theorem hashToPointPrivate_sound {reprBits K : ℕ} (hg : Good b) (hK : 5 ≤ K) {gen : ℕ → Pt b}
    (hgen0 : ∀ w < 2 ^ K, gen w ≠ 0) {cfg : Config C S} {Q : EccPoint C (ZMod p)}
    {message : List (Piece C (ZMod p))} (hne : message ≠ []) {n n' : ℕ} {out}
    {ops : List (Op C S (ZMod p))}
    (h : hashToPointPrivate reprBits K (fun w => enc (gen w)) cfg Q message n = some (out, n', ops))
    {G : Grid C (ZMod p)} {tot : List (Op C S (ZMod p))} (hsub : ∀ op ∈ ops, op ∈ tot)
    (hsat : Sat (gates cfg) G tot)
    (hl : SatLookup (lookup K (fun w => enc (gen w)) cfg) G tot n)
    {P : Pt b} (hP : P ≠ 0) (hQ : Holds G Q P) :
    Hashes K gen G P message out.1 out.2 := by
  obtain ⟨hpv, hok, e⟩ := hashToPointPrivate_some h
  cases e
  obtain ⟨e1, e2⟩ := private_sound hpv hQ (fun op ho => hsub op (List.mem_append_left _ ho)) hsat
  exact hashFrom_sound hg hK hgen0 hne hok (fun op ho => hsub op (List.mem_append_right _ ho)) hsat hl
    hP e1 e2

/-- The words of a piece are determined by the value of its cell as long as they do not wrap around
the field. -/
theorem Decomposed.words_eq {K : ℕ} {G : Grid C (ZMod p)} {P : Piece C (ZMod p)}
    {zs : List (ACell C (ZMod p))} {ws : List ℕ} (h : Decomposed K G P zs ws)
    (hp : 2 ^ (K * P.numWords) ≤ p) :
    (G.at P.cell.cell).val < 2 ^ (K * P.numWords) ∧
      ws = digitsOf K P.numWords (G.at P.cell.cell).val := by
  have hlt : Nat.ofDigits (2 ^ K) ws < 2 ^ (K * P.numWords) := by
    rw [pow_mul, ← h.length]
    rcases Nat.eq_zero_or_pos K with rfl | hK
    · have : ∀ l : List ℕ, (∀ w ∈ l, w < 2 ^ 0) → Nat.ofDigits (2 ^ 0) l = 0 := by
        intro l hl
        induction l with
        | nil => rfl
        | cons a l ih =>
          have := hl a (by simp)
          rw [Nat.ofDigits_cons, ih fun w hw => hl w (by simp [hw])]
          simpa using this
      rw [this ws h.lt]; positivity
    · exact Nat.ofDigits_lt_base_pow_length (Nat.one_lt_two_pow (by omega)) h.lt
  have hval : (G.at P.cell.cell).val = Nat.ofDigits (2 ^ K) ws := by
    rw [h.value, ZMod.val_natCast, Nat.mod_eq_of_lt (by omega)]
  rw [hval]
  refine ⟨hlt, ?_⟩
  have key : ∀ (l : List ℕ), (∀ w ∈ l, w < 2 ^ K) →
      l = digitsOf K l.length (Nat.ofDigits (2 ^ K) l) := by
    intro l hl
    induction l with
    | nil => rfl
    | cons a l ih =>
      have ha := hl a (by simp)
      have e : ∀ x n, digitsOf K (n + 1) x = (x % 2 ^ K) :: digitsOf K n (x / 2 ^ K) := by
        intro x n
        unfold digitsOf
        rw [List.range_succ_eq_map, List.map_cons, List.map_map, pow_zero, Nat.div_one]
        congr 1
        refine List.map_congr_left fun i _ => ?_
        simp only [Function.comp, Nat.succ_eq_add_one, pow_succ', Nat.div_div_eq_div_mul]
      rw [List.length_cons, e, Nat.ofDigits_cons, Nat.add_mul_mod_self_left,
        Nat.mod_eq_of_lt ha, Nat.add_mul_div_left _ _ (by positivity), Nat.div_eq_of_lt ha, zero_add,
        ← ih fun w hw => hl w (by simp [hw])]
  rw [← h.length]
  exact key ws h.lt

/-- **C58**, soundness in terms of the cells of the message, for pieces that do not wrap around the
field (the chip refuses to witness longer ones): each cell holds a number with no more bits than its
words, and the output is the hash of these bits. -/
theorem Hashes.value {K : ℕ} {gen : ℕ → Pt b} {G : Grid C (ZMod p)} {Q : Pt b}
    {message : List (Piece C (ZMod p))} {out : EccPoint C (ZMod p)}
    {zs : List (List (ACell C (ZMod p)))} (h : Hashes K gen G Q message out zs)
    (hp : ∀ P ∈ message, 2 ^ (K * P.numWords) ≤ p) :
    (∀ P ∈ message, (G.at P.cell.cell).val < 2 ^ (K * P.numWords)) ∧
    (Collides gen Q (message.flatMap fun P => digitsOf K P.numWords (G.at P.cell.cell).val) ∨
      ∃ R, specHash gen Q (message.flatMap fun P => digitsOf K P.numWords (G.at P.cell.cell).val)
        = some R ∧ Holds G out R) := by
  obtain ⟨wss, h1, h2, h3, h4⟩ := h
  have e : wss = message.map fun P => digitsOf K P.numWords (G.at P.cell.cell).val := by
    refine List.ext_getElem (by simp [h1]) fun k k1 k2 => ?_
    rw [List.getElem_map]
    exact ((h3 k (by omega) k1 (by omega)).words_eq (hp _ (List.getElem_mem _))).2
  refine ⟨fun P hP => ?_, ?_⟩
  · obtain ⟨k, hk, rfl⟩ := List.getElem_of_mem hP
    exact ((h3 k hk (by omega) (by omega)).words_eq (hp _ (List.getElem_mem _))).1
  · rw [List.flatMap_def, ← e]
    exact h4

/-! ## Completeness -/

theorem hash_sat (hg : Good b) {reprBits K : ℕ} (hK : 5 ≤ K) {gen : ℕ → Pt b}
    {cfg : Config C S} (hsel : cfg.qS1 ≠ cfg.qS4)
    {reg offset : ℕ} {message : List (Piece C (ZMod p))} (hfit : ∀ P ∈ message, Fits reprBits K P)
    {Q R : Pt b} (hspec : specHash gen Q (msgWords K message) = some R) {s : ZMod p × ZMod p}
    (hs : enc Q = s) {G : Grid C (ZMod p)} {initOps : List (Op C S (ZMod p))}
    (hinit : ∀ sel reg row, .enable sel reg row ∈ initOps → sel = cfg.qS4)
    (hon : Honest G (hashOps reprBits K (fun w => enc (gen w)) cfg reg offset message s))
    (hx : G reg cfg.da.xA offset = s.1)
    (hcells : ∀ P ∈ message, G.at P.cell.cell = P.cell.value) :
    Sat (gates cfg) G (hashOps reprBits K (fun w => enc (gen w)) cfg reg offset message s) ∧
    ∀ reg', SatLookup (lookup K (fun w => enc (gen w)) cfg) G
      (initOps ++ hashOps reprBits K (fun w => enc (gen w)) cfg reg offset message s) reg' := by
  have hp : p ≠ 2 := by
    rintro rfl
    exact hg.two (CharTwo.two_eq_zero)
  have hK0 : K ≠ 0 := by omega
  obtain ⟨hrows, -, -⟩ := hash_rows hg hK0 hfit hspec hs hon hx
  have hbits := fun i hi => pieces_bits hK0 hp hfit hon.left i hi
  have hlen := msgWords_length (K := K) (message := message)
  -- the operations
  have hmem : ∀ op ∈ hashOps reprBits K (fun w => enc (gen w)) cfg reg offset message s,
      (∃ i < rowsOf message, op = .enable cfg.qS1 reg ((offset + i : ℕ) : ℤ)) ∨
      (∃ c v, op = .fixed c v) ∨ (∃ c v, op = .advice c v) ∨
      ∃ P ∈ message, ∃ c, op = .equal c P.cell.cell ∧ .advice c P.cell.value ∈
        hashOps reprBits K (fun w => enc (gen w)) cfg reg offset message s := by
    intro op ho
    rcases List.mem_append.1 ho with ho | ho
    · rcases pieces_constraints ho with h | h | h | ⟨P, hP, c, rfl, h⟩
      · exact .inl h
      · exact .inr (.inl h)
      · exact .inr (.inr (.inl h))
      · exact .inr (.inr (.inr ⟨P, hP, c, rfl, List.mem_append_left _ h⟩))
    · simp only [List.mem_cons, List.not_mem_nil, or_false] at ho
      rcases ho with rfl | rfl | rfl <;> exact .inr (.inr (.inl ⟨_, _, rfl⟩))
  refine ⟨⟨?_, ?_, ?_, fun c v h => hon.2 c v h⟩, ?_⟩
  · intro g hg' reg' row ho
    rcases hmem _ ho with ⟨i, hi, e⟩ | ⟨_, _, e⟩ | ⟨_, _, e⟩ | ⟨_, _, _, e, _⟩
    · simp only [Op.enable.injEq] at e
      obtain ⟨e1, rfl, rfl⟩ := e
      simp only [gates, List.mem_cons, List.not_mem_nil, or_false] at hg'
      rcases hg' with rfl | rfl
      · exact absurd e1.symm hsel
      · have r := hrows i (by omega)
        have v := (hbits i (by omega)).1
        have hq3 : qS3 cfg (G.query reg' ((offset + i : ℕ) : ℤ))
            = if decide (i + 1 = rowsOf message) then 2 else 0 := by
          rw [← v]; simp only [qS3, Grid.query, add_zero]
        have c1 : (((offset + i : ℕ) : ℤ) + 1) = ((offset + i + 1 : ℕ) : ℤ) := by push_cast; ring
        intro f hf
        simp only [List.mem_cons, List.not_mem_nil, or_false] at hf
        rcases hf with rfl | rfl
        · have := r.secant
          simpa only [Grid.query, add_zero, c1] using this
        · have := r.y
          rw [hq3, YA_shift]
          simp only [Grid.query, add_zero, c1] at this ⊢
          by_cases hl : decide (i + 1 = rowsOf message) = true
          · rw [if_pos hl] at this ⊢; linear_combination this
          · rw [if_neg hl] at this ⊢; linear_combination this
    · cases e
    · cases e
    · cases e
  · intro a c ho
    rcases hmem _ ho with ⟨i, hi, e⟩ | ⟨_, _, e⟩ | ⟨_, _, e⟩ | ⟨P, hP, c', e, h'⟩
    · cases e
    · cases e
    · cases e
    · cases e
      rw [hcells P hP]
      exact hon.1 _ _ h'
  · intro c v ho
    rcases hmem _ ho with ⟨i, hi, e⟩ | ⟨_, _, e⟩ | ⟨_, _, e⟩ | ⟨P, hP, c', e, h'⟩ <;> cases e
  · intro reg' row
    by_cases hon1 : (.enable cfg.qS1 reg' row : Op C S (ZMod p)) ∈
        initOps ++ hashOps reprBits K (fun w => enc (gen w)) cfg reg offset message s
    · rw [lookup_on K _ cfg hK (LookupRange.selectors_on hon1)]
      rcases List.mem_append.1 hon1 with ho | ho
      · exact absurd (hinit _ _ _ ho) hsel
      · rcases hmem _ ho with ⟨i, hi, e⟩ | ⟨_, _, e⟩ | ⟨_, _, e⟩ | ⟨_, _, _, e, _⟩
        · simp only [Op.enable.injEq, true_and] at e
          obtain ⟨rfl, rfl⟩ := e
          have r := hrows i (by omega)
          have v := (hbits i (by omega)).2
          have c1 : (((offset + i : ℕ) : ℤ) + 1) = ((offset + i + 1 : ℕ) : ℤ) := by push_cast; ring
          refine ⟨(msgWords K message)[i]'(by omega), ?_, ?_, ?_, ?_⟩
          · have hm := List.getElem_mem (l := msgWords K message) (n := i) (by omega)
            obtain ⟨P, -, hm⟩ := List.mem_flatMap.1 hm
            obtain ⟨j, -, e⟩ := List.mem_map.1 hm
            rw [← e]
            exact Nat.mod_lt _ (by positivity)
          · simpa only [qS3, Grid.query, add_zero, c1] using v
          · simpa only [Grid.query, add_zero] using r.xp
          · simpa only [Grid.query, add_zero] using r.yp
        · cases e
        · cases e
        · cases e
    · exact lookup_off K _ cfg hK (LookupRange.selectors_off hon1)

theorem coords_ne_zero (hg : Good b) {R : Pt b} (hR : R ≠ 0) : (enc R).1 ≠ 0 ∧ (enc R).2 ≠ 0 := by
  obtain ⟨h, -⟩ := enc_ne_zero hg hR (x := (enc R).1) (y := (enc R).2) rfl
  exact ⟨x_ne_zero hg h, y_ne_zero hg h⟩

/-- The output cells of an honest hash. -/
theorem hash_holds {reprBits K : ℕ} (hK0 : K ≠ 0) {gens : ℕ → ZMod p × ZMod p} {cfg : Config C S}
    {reg offset : ℕ} {message : List (Piece C (ZMod p))} (hfit : ∀ P ∈ message, Fits reprBits K P)
    {s : ZMod p × ZMod p} {R : Pt b}
    (hRe : enc R = (allGens reprBits K gens message).foldl next s) {G : Grid C (ZMod p)}
    (hon : Honest G (hashOps reprBits K gens cfg reg offset message s))
    (hx : G reg cfg.da.xA offset = s.1) :
    Holds G (hashOut reprBits K gens cfg reg offset message s) R := by
  have hok : ∀ P ∈ message, PieceOk reprBits K P := fun P hP => (hfit P hP).ok hK0
  have hxo : G reg cfg.da.xA (offset + rowsOf message : ℕ)
      = ((allGens reprBits K gens message).foldl next s).1 := by
    have hlen := msgWords_length (K := K) (message := message)
    have hgl : (allGens reprBits K gens message).length = rowsOf message := by
      rw [allGens_eq hK0 hfit, List.length_map, hlen]
    cases hr : rowsOf message with
    | zero =>
      rw [List.length_eq_zero_iff.1 (hgl.trans hr), add_zero]
      exact hx
    | succ m =>
      have := (rows_honest (G := G) (gs := allGens reprBits K gens message)
        (fun c v hm => hon.1 c v (List.mem_append_left _ (pieces_rows hok _ hm))) m (by omega)).2.2.2
      rwa [List.take_of_length_le (by omega)] at this
  have hyo := hon.1 ⟨reg, cfg.da.lambda1, (offset + rowsOf message : ℕ)⟩ _
    (List.mem_append_right _ (List.mem_cons_self ..))
  unfold Holds
  rw [hRe]
  exact Prod.ext hxo.symm hyo.symm

/-- **C58**, completeness: if the message is not empty, every piece fits in its words and the
Sinsemilla hash `R` of the words from `Q` is defined, then `hash_to_point` succeeds, the output has
the value `R`, and any assignment with the witnesses computed meets all the constraints and lookups. -/
theorem hashToPoint_complete (hg : Good b) {reprBits K : ℕ} (hK : 5 ≤ K) {gen : ℕ → Pt b}
    {cfg : Config C S} (hsel : cfg.qS1 ≠ cfg.qS4) {message : List (Piece C (ZMod p))}
    (hne : message ≠ []) (hfit : ∀ P ∈ message, Fits reprBits K P) {Q R : Pt b} (hQ : Q ≠ 0)
    (hspec : specHash gen Q (msgWords K message) = some R) (n : ℕ) :
    ∃ out zs ops, hashToPoint reprBits K (fun w => enc (gen w)) cfg Q message n
        = some ((out, zs), n + 1, ops) ∧ Val out R ∧
      ∀ G : Grid C (ZMod p), Honest G ops → (∀ P ∈ message, G.at P.cell.cell = P.cell.value) →
        Sat (gates cfg) G ops ∧
        (∀ reg, SatLookup (lookup K (fun w => enc (gen w)) cfg) G ops reg) ∧ Holds G out R := by
  have hK0 : K ≠ 0 := by omega
  have hok : ∀ P ∈ message, PieceOk reprBits K P := fun P hP => (hfit P hP).ok hK0
  have hR0 := (specHash_some hspec).2 hQ
  obtain ⟨hRe, -⟩ := acc_complete hg hspec (s := enc Q) rfl
  rw [← allGens_eq (reprBits := reprBits) (gens := fun w => enc (gen w)) hK0 hfit] at hRe
  obtain ⟨hx, hy⟩ := coords_ne_zero hg hR0
  rw [hRe] at hx hy
  refine ⟨hashOut reprBits K (fun w => enc (gen w)) cfg n (initRow cfg) message (enc Q), _, _,
    bind_of (publicInit_run cfg n hQ (n + 1)) (hashFrom_run rfl hok hx hy _), hRe, ?_⟩
  intro G hon hcells
  have hxQ : G n cfg.da.xA (initRow cfg) = (enc Q).1 := by
    refine hon.1 ⟨n, cfg.da.xA, initRow cfg⟩ _ (List.mem_append_left _ ?_)
    unfold publicOps initRow
    cases cfg.allowPrivate <;> simp
  obtain ⟨-, hya, -⟩ := hash_rows hg hK0 hfit hspec (s := enc Q) rfl hon.right hxQ
  obtain ⟨h1, h2⟩ := hash_sat hg hK hsel hfit hspec (s := enc Q) rfl
    (initOps := publicOps cfg n Q) (by
      intro sel reg row hm
      unfold publicOps at hm
      cases hpv : cfg.allowPrivate <;> simp [hpv] at hm <;> exact hm.1) hon.right hxQ hcells
  refine ⟨Sat.append ⟨?_, ?_, ?_, fun c v hm => hon.2 c v (List.mem_append_left _ hm)⟩ h1, h2, ?_⟩
  · intro g hg' reg row hm
    have hm' : g.1 = cfg.qS4 ∧ reg = n ∧ row = initRow cfg := by
      unfold publicOps at hm
      unfold initRow
      cases hpv : cfg.allowPrivate <;> simp [hpv] at hm ⊢ <;> exact hm
    obtain ⟨e, rfl, rfl⟩ := hm'
    simp only [gates, List.mem_cons, List.not_mem_nil, or_false] at hg'
    rcases hg' with rfl | rfl
    · intro f hf
      rw [List.mem_singleton.1 hf, hya hne]
      have hl := hon.left
      unfold publicOps at hl
      cases hpv : cfg.allowPrivate with
      | true =>
        have : G reg cfg.da.xP 0 = (enc Q).2 := hl.1 ⟨reg, cfg.da.xP, 0⟩ _ (by simp [hpv])
        simp only [if_true, Grid.query, initRow, hpv]
        rw [show ((1 : ℕ) : ℤ) + -1 = 0 by norm_num, this]
        ring
      | false =>
        have : G reg cfg.fixedYQ 0 = (enc Q).2 := hl.2 ⟨reg, cfg.fixedYQ, 0⟩ _ (by simp [hpv])
        simp only [Bool.false_eq_true, if_false, Grid.query, initRow, hpv]
        rw [show ((0 : ℕ) : ℤ) + 0 = 0 by norm_num, this]
        ring
    · exact absurd e hsel
  · intro a c hm
    unfold publicOps at hm
    cases hpv : cfg.allowPrivate <;> simp [hpv] at hm
  · intro c v hm
    have hl := hon.left
    unfold publicOps at hm hl
    cases hpv : cfg.allowPrivate with
    | true =>
      simp only [hpv, if_true] at hm hl
      simp only [List.mem_cons, reduceCtorEq, Op.const.injEq, List.not_mem_nil, or_false, false_or] at hm
      rcases hm with ⟨rfl, rfl⟩ | ⟨rfl, rfl⟩ <;> exact hl.1 _ _ (by simp)
    | false =>
      simp only [hpv, Bool.false_eq_true, if_false] at hm hl
      simp only [List.mem_cons, reduceCtorEq, Op.const.injEq, List.not_mem_nil, or_false, false_or] at hm
      obtain ⟨rfl, rfl⟩ := hm
      exact hl.1 _ _ (by simp)
  · exact hash_holds hK0 hfit hRe hon.right hxQ

/-- **C58**, completeness of `hash_to_point_with_private_init`. -/
theorem hashToPointPrivate_complete (hg : Good b) {reprBits K : ℕ} (hK : 5 ≤ K) {gen : ℕ → Pt b}
    {cfg : Config C S} (hpv : cfg.allowPrivate = true) (hsel : cfg.qS1 ≠ cfg.qS4)
    {message : List (Piece C (ZMod p))} (hne : message ≠ []) (hfit : ∀ P ∈ message, Fits reprBits K P)
    {Qc : EccPoint C (ZMod p)} {Q R : Pt b} (hQ : Q ≠ 0) (hQc : Val Qc Q)
    (hspec : specHash gen Q (msgWords K message) = some R) (n : ℕ) :
    ∃ out zs ops, hashToPointPrivate reprBits K (fun w => enc (gen w)) cfg Qc message n
        = some ((out, zs), n + 1, ops) ∧ Val out R ∧
      ∀ G : Grid C (ZMod p), Honest G ops → (∀ P ∈ message, G.at P.cell.cell = P.cell.value) →
        G.at Qc.x.cell = Qc.x.value → G.at Qc.y.cell = Qc.y.value →
        Sat (gates cfg) G ops ∧
        (∀ reg, SatLookup (lookup K (fun w => enc (gen w)) cfg) G ops reg) ∧ Holds G out R := by
  have hK0 : K ≠ 0 := by omega
  have hok : ∀ P ∈ message, PieceOk reprBits K P := fun P hP => (hfit P hP).ok hK0
  have hR0 := (specHash_some hspec).2 hQ
  obtain ⟨hRe, -⟩ := acc_complete hg hspec hQc
  rw [← allGens_eq (reprBits := reprBits) (gens := fun w => enc (gen w)) hK0 hfit] at hRe
  obtain ⟨hx, hy⟩ := coords_ne_zero hg hR0
  rw [hRe] at hx hy
  refine ⟨hashOut reprBits K (fun w => enc (gen w)) cfg n 1 message (Qc.x.value, Qc.y.value),
    piecesZs reprBits K cfg n 1 message, privateOps cfg n Qc ++
      hashOps reprBits K (fun w => enc (gen w)) cfg n 1 message (Qc.x.value, Qc.y.value), ?_, hRe, ?_⟩
  · unfold hashToPointPrivate
    rw [assert_bind hpv]
    exact bind_of (privateInit_run cfg n Qc hpv (n + 1)) 
      (hashFrom_run (offset := 1) (xa := ⟨⟨n, cfg.da.xA, 1⟩, Qc.x.value⟩) rfl hok hx hy _)
  intro G hon hcells hqx hqy
  have hl : ∀ c v, .advice c v ∈ privateOps cfg n Qc → G.at c = v := hon.left.1
  simp only [privateOps, List.mem_cons, reduceCtorEq, false_or, List.not_mem_nil, or_false,
    Op.advice.injEq] at hl
  have hxQ : G n cfg.da.xA (1 : ℕ) = Qc.x.value := hl ⟨n, cfg.da.xA, 1⟩ _ (by simp)
  have hyQ : G n cfg.da.xP 0 = Qc.y.value := hl ⟨n, cfg.da.xP, 0⟩ _ (by simp)
  obtain ⟨-, hya, -⟩ := hash_rows hg hK0 hfit hspec hQc hon.right hxQ
  obtain ⟨h1, h2⟩ := hash_sat hg hK hsel hfit hspec hQc (initOps := privateOps cfg n Qc) (by
      intro sel reg row hm
      simp [privateOps] at hm; exact hm.1) hon.right hxQ hcells
  refine ⟨Sat.append ⟨?_, ?_, ?_, fun c v hm => hon.2 c v (List.mem_append_left _ hm)⟩ h1, h2,
    hash_holds hK0 hfit hRe hon.right hxQ⟩
  · intro g hg' reg row hm
    simp only [privateOps, List.mem_cons, reduceCtorEq, List.not_mem_nil, or_false,
      Op.enable.injEq] at hm
    obtain ⟨e, rfl, rfl⟩ := hm
    simp only [gates, List.mem_cons, List.not_mem_nil, or_false] at hg'
    rcases hg' with rfl | rfl
    · intro f hf
      rw [List.mem_singleton.1 hf]
      have hya' : cfg.da.YA (G.query reg 1) 0 = 2 * Qc.y.value := hya hne
      rw [hya']
      simp only [hpv, if_true, Grid.query]
      rw [show (1 : ℤ) + -1 = 0 by norm_num, hyQ]
      ring
    · exact absurd e hsel
  · intro a c hm
    simp only [privateOps, List.mem_cons, reduceCtorEq, List.not_mem_nil, or_false, false_or,
      Op.equal.injEq] at hm
    rcases hm with ⟨rfl, rfl⟩ | ⟨rfl, rfl⟩
    · rw [hqy]; exact hyQ
    · rw [hqx]; exact hxQ
  · intro c v hm
    simp [privateOps] at hm

end Verif.Sinsemilla
