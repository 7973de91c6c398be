import Verif.Commitment.Model
import Verif.Transcript.Props
import Verif.Domain.Props

/-!
# C27: parameters serialise faithfully, and both bases commit alike
-/

namespace Verif.Commitment

open Verif.Msm Verif.Transcript Verif.Domain Verif.Multicore Verif.Fft Verif.PolyArith

variable {F K A : Type} [Field F] [Field K] [AddCommGroup A] [Module F A]

/-! ## Serialisation -/

theorem fromLe32_le32 (k : ℕ) (h : k < 2 ^ 32) : fromLe32 (le32 k) = k := by
  simp only [le32, fromLe32, UInt8.toNat_ofNat']
  omega

theorem le32_fromLe32 (bs : Bytes) (h : bs.length = 4) : le32 (fromLe32 bs) = bs := by
  match bs, h with
  | [a, b, c, d], _ =>
    have ha := a.toNat_lt; have hb := b.toNat_lt; have hc := c.toNat_lt; have hd := d.toNat_lt
    simp only [fromLe32, le32, List.cons.injEq, and_true]
    refine ⟨?_, ?_, ?_, ?_⟩ <;> rw [← UInt8.toNat_inj, UInt8.toNat_ofNat'] <;> omega

theorem readPoint_ok (e : Enc F K A) (he : e.Valid) (p : A) (rest : Bytes) :
    readPoint e (e.pointBytes p ++ rest) = .ok (p, rest) := by
  have hl := he.point_len p
  unfold readPoint takeExact
  rw [if_neg (by simp only [List.length_append, hl]; omega)]
  simp only [Except.bind, List.take_append_of_le_length (le_of_eq hl.symm),
      List.drop_append_of_le_length (le_of_eq hl.symm)]
  rw [List.take_of_length_le hl.le, List.drop_of_length_le hl.le, List.nil_append,
    (he.point_iff _ p).2 rfl]

theorem readPoint_inv (e : Enc F K A) (he : e.Valid) (p : A) (input rest : Bytes)
    (h : readPoint e input = .ok (p, rest)) : input = e.pointBytes p ++ rest := by
  unfold readPoint takeExact at h
  split_ifs at h with hl
  · cases h
  · simp only [Except.bind] at h
    split at h
    · cases h
    · rename_i a ha
      cases h
      rw [(he.point_iff _ _).1 ha, List.take_append_drop]

theorem readPoints_ok (e : Enc F K A) (he : e.Valid) (l : List A) (rest : Bytes) :
    readPoints e l.length ((l.map e.pointBytes).flatten ++ rest) = .ok (l, rest) := by
  induction l with
  | nil => rfl
  | cons p t ih =>
    simp only [List.length_cons, readPoints, List.map_cons, List.flatten_cons, List.append_assoc]
    rw [readPoint_ok e he]
    simp only [Except.bind, ih]
    rfl

theorem readPoints_inv (e : Enc F K A) (he : e.Valid) (m : ℕ) (l : List A) (input rest : Bytes)
    (h : readPoints e m input = .ok (l, rest)) :
    l.length = m ∧ input = (l.map e.pointBytes).flatten ++ rest := by
  induction m generalizing l input with
  | zero => cases h; exact ⟨rfl, rfl⟩
  | succ m ih =>
    unfold readPoints at h
    rcases h1 : readPoint e input with err | ⟨p, rest'⟩
    · rw [h1] at h; cases h
    · rw [h1] at h
      simp only [Except.bind] at h
      rcases h2 : readPoints e m rest' with err | ⟨q, rest''⟩
      · rw [h2] at h; cases h
      · rw [h2] at h
        cases h
        obtain ⟨h3, h4⟩ := ih _ _ h2
        refine ⟨by simp [h3], ?_⟩
        rw [readPoint_inv e he _ _ _ h1, h4]
        simp

/-- Parameters of consistent sizes, as `new` and `read` build them. -/
structure Sized (pr : Params A) : Prop where
  k_lt : pr.k < 64
  n_eq : pr.n = 2 ^ pr.k
  g_len : pr.g.length = pr.n
  gl_len : pr.gLagrange.length = pr.n

/-- **C27**: reading what was written returns the parameters and leaves what follows. -/
theorem read_write (e : Enc F K A) (he : e.Valid) (pr : Params A) (hp : Sized pr) (rest : Bytes) :
    Params.read e (Params.write e pr ++ rest) = .ok (pr, rest) := by
  have hk := hp.k_lt
  unfold Params.read Params.write
  have h4 : takeExact 4 (le32 pr.k ++ (pr.g.map e.pointBytes).flatten
      ++ (pr.gLagrange.map e.pointBytes).flatten ++ e.pointBytes pr.w ++ e.pointBytes pr.u ++ rest)
      = .ok (le32 pr.k, (pr.g.map e.pointBytes).flatten
      ++ ((pr.gLagrange.map e.pointBytes).flatten ++ (e.pointBytes pr.w ++ (e.pointBytes pr.u
        ++ rest)))) := by
    unfold takeExact
    rw [if_neg (by simp [le32])]
    simp [le32]
  rw [h4]
  simp only [Except.bind, fromLe32_le32 pr.k (by omega)]
  rw [if_neg (by omega), ← hp.n_eq]
  have h5 := readPoints_ok e he pr.g ((pr.gLagrange.map e.pointBytes).flatten ++
    (e.pointBytes pr.w ++ (e.pointBytes pr.u ++ rest)))
  rw [hp.g_len] at h5
  have h6 := readPoints_ok e he pr.gLagrange (e.pointBytes pr.w ++ (e.pointBytes pr.u ++ rest))
  rw [hp.gl_len] at h6
  simp only [h5, h6, readPoint_ok e he]

/-- **C27**: conversely whatever `read` accepts is the serialisation of the parameters it
returns, which have consistent sizes. -/
theorem write_read (e : Enc F K A) (he : e.Valid) (pr : Params A) (input rest : Bytes)
    (h : Params.read e input = .ok (pr, rest)) :
    input = Params.write e pr ++ rest ∧ Sized pr := by
  unfold Params.read at h
  rcases h1 : takeExact 4 input with err | ⟨kb, r₁⟩
  · rw [h1] at h; cases h
  have hkb : kb.length = 4 ∧ input = kb ++ r₁ := by
    unfold takeExact at h1
    split_ifs at h1 with hl
    cases h1
    exact ⟨by simp; omega, by simp⟩
  rw [h1] at h
  simp only [Except.bind] at h
  split_ifs at h with hk
  rcases h2 : readPoints e (2 ^ fromLe32 kb) r₁ with err | ⟨g, r₂⟩
  · rw [h2] at h; cases h
  rw [h2] at h
  simp only at h
  rcases h3 : readPoints e (2 ^ fromLe32 kb) r₂ with err | ⟨gl, r₃⟩
  · rw [h3] at h; cases h
  rw [h3] at h
  simp only at h
  rcases h4 : readPoint e r₃ with err | ⟨w, r₄⟩
  · rw [h4] at h; cases h
  rw [h4] at h
  simp only at h
  rcases h5 : readPoint e r₄ with err | ⟨u, r₅⟩
  · rw [h5] at h; cases h
  rw [h5] at h
  cases h
  obtain ⟨l1, e1⟩ := readPoints_inv e he _ _ _ _ h2
  obtain ⟨l2, e2⟩ := readPoints_inv e he _ _ _ _ h3
  refine ⟨?_, ⟨by simpa using hk, rfl, l1, l2⟩⟩
  rw [hkb.2, e1, e2, readPoint_inv e he _ _ _ h4, readPoint_inv e he _ _ _ h5]
  simp [Params.write, le32_fromLe32 kb hkb.1]

/-! ## The two bases -/

/-- `Params::new` on a field with a primitive `2^S`-th root of unity, `k < 32`, `k ≤ S`: the
generators are the images of the distinct messages, and the Lagrange basis is their inverse
transform. -/
theorem new_eq (threads : ℕ) (ht : threads ≠ 0) (c : Consts F) (hc : c.Valid) (hasher : Bytes → A)
    (k : ℕ) (hk : k < 32) (hS : k ≤ c.S) :
    Params.new threads c hasher k = some
      { k := k, n := 2 ^ k
        g := (List.range (2 ^ k)).map fun i => hasher ([0] ++ le32 i)
        gLagrange := (dft (c.rootOfUnity ^ 2 ^ (c.S - k))⁻¹
          ((List.range (2 ^ k)).map fun i => hasher ([0] ++ le32 i))).map
            fun x => ((2 ^ k : ℕ) : F)⁻¹ • x
        w := hasher [1], u := hasher [2] } := by
  have hpos : 0 < 2 ^ k := by positivity
  unfold Params.new
  rw [if_neg (by omega)]
  have h1 := parallelize_eq_mapIdx threads (List.replicate (2 ^ k) (0 : A))
    (fun i _ => hasher ([0] ++ le32 i)) (by simp) ht
  have h2 : (List.replicate (2 ^ k) (0 : A)).mapIdx (fun i _ => hasher ([0] ++ le32 i))
      = (List.range (2 ^ k)).map fun i => hasher ([0] ++ le32 i) := by
    apply List.ext_getElem <;> simp
  rw [h2] at h1
  dsimp only
  rw [h1, Option.bind_some]
  have hw : IsPrimitiveRoot (c.rootOfUnity ^ 2 ^ (c.S - k)) (2 ^ k) :=
    hc.root.pow (by positivity) (by rw [← pow_add]; congr 1; omega)
  have h3 := bestFft_eq_dft threads (by omega)
    ((List.range (2 ^ k)).map fun i => hasher ([0] ++ le32 i)) _ k (by simp) hw.inv
  rw [squareN_eq, inv_pow, h3, Option.bind_some]
  have h4 := parallelize_eq_mapIdx threads (dft (c.rootOfUnity ^ 2 ^ (c.S - k))⁻¹
    ((List.range (2 ^ k)).map fun i => hasher ([0] ++ le32 i)))
    (fun _ x => ((2 : F)⁻¹ ^ k) • x) (by
      intro h
      have := congrArg List.length h
      simp [dft] at this) ht
  have h5 : ∀ l : List A, l.mapIdx (fun _ x => ((2 : F)⁻¹ ^ k) • x)
      = l.map fun x => ((2 : F)⁻¹ ^ k) • x := by
    intro l; apply List.ext_getElem <;> simp
  simp only [h5] at h4
  rw [h4, Option.bind_some]
  simp [inv_pow]

theorem new_omega [DecidableEq F] (c : Consts F) (j k : ℕ) (d : Domain F) (h : new c j k = some d) :
    d.omega = c.rootOfUnity ^ 2 ^ (c.S - k) := by
  obtain ⟨hx1, hx2, hx3⟩ := extLoop_spec (2 ^ k * (j - 1)) k
  unfold new at h
  split_ifs at h with h1
  dsimp only at h
  split_ifs at h with h2
  obtain ⟨t, -, h⟩ := Option.bind_eq_some_iff.1 h
  split_ifs at h with h3
  obtain ⟨inv, -, h⟩ := Option.bind_eq_some_iff.1 h
  split at h
  · cases h
    simp only [squareN_eq]
    rw [← pow_mul, ← pow_add]
    congr 2
    omega
  · cases h

theorem multiexp_append (l : List F) (g : List A) (r : F) (w : A) :
    multiexp (l ++ [r]) (g ++ [w])
      = if l.length = g.length then some (dot l g + r • w) else none := by
  unfold multiexp
  by_cases h : l.length = g.length
  · rw [if_pos (by simp [h]), if_pos h]
    congr 1
    change dot _ _ = _
    rw [dot_append _ _ _ _ h]
    simp [dot]
  · rw [if_neg (by simp [h]), if_neg h]

theorem dot_eq_sum (l : List F) (g : List A) (n : ℕ) (hl : l.length = n) (hg : g.length = n) :
    dot l g = ∑ i ∈ Finset.range n, l.getD i 0 • g.getD i 0 := by
  subst hl
  induction l generalizing g with
  | nil => simp [dot]
  | cons a l ih =>
    cases g with
    | nil => simp at hg
    | cons b g =>
      rw [dot_cons, ih g (by simpa using hg), List.length_cons, Finset.sum_range_succ']
      simp [add_comm]

theorem dft_getD (w : F) {G : Type} [AddCommGroup G] [Module F G] (a : List G) (i : ℕ)
    (hi : i < a.length) :
    (dft w a).getD i 0 = ∑ j ∈ Finset.range a.length, w ^ (i * j) • a.getD j 0 := by
  unfold dft
  rw [List.getD_eq_getElem _ _ (by simpa using hi)]
  simp only [List.getElem_map, List.getElem_range]
  rw [← Fin.sum_univ_eq_sum_range (fun j => w ^ (i * j) • a.getD j 0)]
  apply Finset.sum_congr rfl
  intro j _
  rw [List.getD_eq_getElem _ _ j.2]
  rfl

/-- The inverse transform moves from the generators to the scalars. -/
theorem dot_dft (w : F) (n : ℕ) (a : List F) (g : List A) (ha : a.length = n) (hg : g.length = n) :
    dot (dft w a) g = dot a (dft w g) := by
  rw [dot_eq_sum _ _ n (by simp [dft, ha]) hg, dot_eq_sum _ _ n ha (by simp [dft, hg])]
  have h1 : ∀ i ∈ Finset.range n, (dft w a).getD i 0 • g.getD i 0
      = ∑ j ∈ Finset.range n, (w ^ (i * j) * a.getD j 0) • g.getD i 0 := by
    intro i hi
    rw [dft_getD w a i (by rw [ha]; exact Finset.mem_range.1 hi), ha, Finset.sum_smul]
    rfl
  have h2 : ∀ j ∈ Finset.range n, a.getD j 0 • (dft w g).getD j 0
      = ∑ i ∈ Finset.range n, (w ^ (i * j) * a.getD j 0) • g.getD i 0 := by
    intro j hj
    rw [dft_getD w g j (by rw [hg]; exact Finset.mem_range.1 hj), hg, Finset.smul_sum]
    apply Finset.sum_congr rfl
    intro i _
    rw [smul_smul, mul_comm i j, mul_comm]
  rw [Finset.sum_congr rfl h1, Finset.sum_congr rfl h2, Finset.sum_comm]

theorem dot_smul_right (l : List F) (c : F) (g : List A) :
    dot l (g.map fun x => c • x) = c • dot l g := by
  induction l generalizing g with
  | nil => simp [dot]
  | cons a l ih =>
    cases g with
    | nil => simp [dot]
    | cons x g => simp only [List.map_cons, dot_cons, ih, smul_add, smul_smul, mul_comm a]

variable [DecidableEq F]

/-- **C27**: committing to values in the Lagrange basis is committing to the coefficients
`lagrange_to_coeff` computes, with the same blind. -/
theorem commitLagrange_eq (threads : ℕ) (ht : threads ≠ 0) (c : Consts F) (hc : c.Valid)
    (hasher : Bytes → A) (j k : ℕ) (d : Domain F) (hd : new c j k = some d) (pr : Params A)
    (hpr : Params.new threads c hasher k = some pr) (a : List F) (r : F) :
    pr.commitLagrange a r = (d.lagrangeToCoeff threads a).bind fun p => pr.commit p r := by
  obtain ⟨h1, h2⟩ := new_spec c hc j k
  obtain ⟨hv, hk, -⟩ := h1 d hd
  have hS := (h2.1 ⟨d, hd⟩).2.1
  have hom := new_omega c j k d hd
  by_cases hk32 : k < 32
  swap
  · unfold Params.new at hpr; rw [if_pos hk32] at hpr; cases hpr
  rw [new_eq threads ht c hc hasher k hk32 hS] at hpr
  obtain ⟨g, hg⟩ : ∃ g, g = (List.range (2 ^ k)).map fun i => hasher ([0] ++ le32 i) := ⟨_, rfl⟩
  rw [← hg] at hpr
  have hgl : g.length = 2 ^ k := by simp [hg]
  have hpr' := (Option.some.inj hpr).symm
  subst hpr'
  unfold Params.commitLagrange Params.commit
  simp only [multiexp_append]
  by_cases hl : a.length = 2 ^ k
  · have hf := bestFft_eq_dft threads (by omega) a d.omega⁻¹ d.k (by rw [hk]; exact hl)
      hv.omega_prim.inv
    have hco : d.lagrangeToCoeff threads a = some ((dft d.omega⁻¹ a).map (· * ((2 ^ k : ℕ) : F)⁻¹)) := by
      unfold Domain.lagrangeToCoeff
      rw [if_neg (by simp [hk, hl]), hv.omega_inv, hv.ifft]
      rw [hk] at hf
      simp only [Domain.ifft, hk, hf, Option.bind_some]
      rw [parallelize_map threads ht]
      intro h
      have := congrArg List.length h
      simp [dft, hl] at this
    rw [hco, Option.bind_some, if_pos (by simp [dft, hl, hgl]), if_pos (by simp [dft, hl, hgl])]
    congr 2
    rw [dot_smul_right, dot_map_mul, ← dot_dft _ _ a g hl hgl, hom]
  · have hco : d.lagrangeToCoeff threads a = none := by
      unfold Domain.lagrangeToCoeff
      rw [if_pos (by rw [hk]; exact hl)]
    rw [hco, if_neg (by simp [dft, hl, hgl])]
    rfl

/-- **C27**: in terms of polynomials, the Lagrange commitment of the values of a polynomial with
`n` coefficients over the evaluation domain is the commitment of its coefficients. -/
theorem commitLagrange_evals (threads : ℕ) (ht : threads ≠ 0) (c : Consts F) (hc : c.Valid)
    (hasher : Bytes → A) (j k : ℕ) (d : Domain F) (hd : new c j k = some d) (pr : Params A)
    (hpr : Params.new threads c hasher k = some pr) (p : List F) (hp : p.length = 2 ^ k) (r : F) :
    pr.commitLagrange (evalsOn 1 d.omega d.n (toPoly p)) r = pr.commit p r := by
  obtain ⟨h1, h2⟩ := new_spec c hc j k
  obtain ⟨hv, hk, -⟩ := h1 d hd
  have hn : d.n = 2 ^ k := by rw [hv.n_eq, hk]
  rw [commitLagrange_eq threads ht c hc hasher j k d hd pr hpr]
  obtain ⟨h3, h4⟩ := lagrangeToCoeff_spec hv threads ht (evalsOn 1 d.omega d.n (toPoly p))
  rcases h5 : d.lagrangeToCoeff threads (evalsOn 1 d.omega d.n (toPoly p)) with _ | out
  · exact absurd (by simp [evalsOn]) (h3.2 h5)
  · rw [Option.bind_some, (h4 out h5).2.2 p (by rw [hn, hp]) rfl]

/-- Generators of consistent sizes come out of `Params::new`. -/
theorem new_sized (threads : ℕ) (ht : threads ≠ 0) (c : Consts F) (hc : c.Valid)
    (hasher : Bytes → A) (k : ℕ) (hk : k < 32) (hS : k ≤ c.S) :
    ∃ pr, Params.new threads c hasher k = some pr ∧ Sized pr ∧ pr.k = k := by
  refine ⟨_, new_eq threads ht c hc hasher k hk hS, ⟨?_, rfl, ?_, ?_⟩, rfl⟩
  · dsimp only; omega
  · simp
  · simp [dft]

/-! ## A concrete case: `k = 2` over the field of 13 elements (acting on itself) -/

/-- The parameters exist and the theorems apply to them. -/
example (hasher : Bytes → ZMod 13) (p : List (ZMod 13)) (hp : p.length = 4) (r : ZMod 13) :
    ∃ d pr, new consts13 2 2 = some d ∧ Params.new 3 consts13 hasher 2 = some pr ∧ Sized pr ∧
      pr.commitLagrange (evalsOn 1 d.omega d.n (toPoly p)) r = pr.commit p r := by
  obtain ⟨d, hd⟩ := (new_spec consts13 consts13_valid 2 2).2.2 (by decide)
  obtain ⟨pr, h1, h2, -⟩ := new_sized (A := ZMod 13) 3 (by decide) consts13 consts13_valid hasher 2
    (by decide) (by decide)
  exact ⟨d, pr, hd, h1, h2, commitLagrange_evals 3 (by decide) consts13 consts13_valid hasher 2 2 d
    hd pr h1 p hp r⟩

end Verif.Commitment
