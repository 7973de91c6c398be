import Verif.Hiding.Quotient

/-!
# Proofs do not depend on the witness (C77)
-/

namespace Verif.Hiding

open Verif.Cs (Cs Column Lookup)
open Verif.Domain (Domain Consts)
open Verif.PolyArith (evalPolynomial)
open Verif.Plonk (Pk Circuit Leaves Permuted Product Challenges CircuitProof CircuitEvals mapS rows
  Sat Nonzero Ready permsOf queryEvals circuitEvals)
open Verif.Msm Verif.Transcript Verif.Multicore
open Verif.Multiopen (commitOf)
open Verif.Ipa (ParamsOk)
open Verif.Protocol

variable {F K A : Type} [Field F] [LinearOrder F] [AddCommGroup A] [Module F A] [Field K]
  [LinearOrder K] {threads : ℕ} {pr : Params A} {d : Domain F}

omit [LinearOrder F] in
/-- What is opened of circuit `i`. -/
theorem opens_getElem {P : Prep F} {rng : Rng F} {n bf : ℕ} {circuits instances : List (List (List F))}
    {products : List (List (Product F × F))} {permuted : List (List (Permuted F × F × F))}
    {lookupProducts : List (List (Product F × F))} {ws : List (Circuit F)}
    (hws : ws = witness n bf rng circuits instances) (hl : circuits.length = instances.length)
    (hi : P.instPolys = ws.map (fun w => w.inst.map (coeffs threads d)))
    (ha : P.advicePolys = ws.map (fun w => w.advice.map (coeffs threads d)))
    (h1 : products.length = ws.length) (h2 : permuted.length = ws.length)
    (h3 : lookupProducts.length = ws.length) (i : ℕ)
    (h : i < (opensList P rng ws products permuted lookupProducts).length)
    (hc : i < circuits.length) :
    (opensList P rng ws products permuted lookupProducts)[i] =
      { inst := (instances[i]'(hl ▸ hc)).map fun v => (coeffs threads d (pad n v), 1)
        advice := adviceOpens threads d rng i (blindCircuit n bf rng.adviceRows i circuits[i])
        permutation := (products.getD i []).map fun p => (p.1.poly, p.2)
        lookups := ((permuted.getD i []).zip (lookupProducts.getD i [])).map fun p =>
          ((p.2.1.poly, p.2.2), (p.1.1.aPoly, p.1.2.1), (p.1.1.sPoly, p.1.2.2)) } := by
  have hwl : ws.length = circuits.length := by rw [hws]; simp [witness, hl]
  rw [adviceOpens_eq, List.getD_eq_getElem _ _ (by omega : i < products.length),
    List.getD_eq_getElem _ _ (by omega : i < permuted.length),
    List.getD_eq_getElem _ _ (by omega : i < lookupProducts.length)]
  simp only [opensList, hi, ha, List.getElem_map, List.getElem_zip, List.getElem_mapIdx, opensOf]
  subst hws
  simp [witness]

omit [LinearOrder F] in
theorem opensList_length {P : Prep F} {rng : Rng F}
    {products : List (List (Product F × F))} {permuted : List (List (Permuted F × F × F))}
    {lookupProducts : List (List (Product F × F))} {ws : List (Circuit F)}
    (hi : P.instPolys = ws.map (fun w => w.inst.map (coeffs threads d)))
    (ha : P.advicePolys = ws.map (fun w => w.advice.map (coeffs threads d)))
    (h1 : products.length = ws.length) (h2 : permuted.length = ws.length)
    (h3 : lookupProducts.length = ws.length) :
    (opensList P rng ws products permuted lookupProducts).length = ws.length := by
  simp [opensList, hi, ha, h1, h2, h3]

/-- Circuits committed to alike open alike. -/
theorem opens_alike {T : ℕ → Finset F} {T0 : Finset F} {cs : Cs F} {P₁ P₂ : Prep F}
    {rng₁ rng₂ : Rng F} {circuits₁ circuits₂ instances : List (List (List F))}
    {pm₁ pm₂ : List (List (Permuted F × F × F))} {pd₁ lp₁ pd₂ lp₂ : List (List (Product F × F))}
    {ws₁ ws₂ : List (Circuit F)} (hw₁ : ws₁ = witness d.n cs.blindingFactors rng₁ circuits₁ instances)
    (hw₂ : ws₂ = witness d.n cs.blindingFactors rng₂ circuits₂ instances)
    (hl : circuits₁.length = instances.length) (hcl : circuits₂.length = circuits₁.length)
    (hc₁ : ∀ a ∈ circuits₁, a.length = cs.numAdvice) (hc₂ : ∀ a ∈ circuits₂, a.length = cs.numAdvice)
    (hi₁ : P₁.instPolys = ws₁.map (fun w => w.inst.map (coeffs threads d)))
    (ha₁ : P₁.advicePolys = ws₁.map (fun w => w.advice.map (coeffs threads d)))
    (hi₂ : P₂.instPolys = ws₂.map (fun w => w.inst.map (coeffs threads d)))
    (ha₂ : P₂.advicePolys = ws₂.map (fun w => w.advice.map (coeffs threads d)))
    (k1 : pd₁.length = ws₁.length) (k2 : pm₁.length = ws₁.length) (k3 : lp₁.length = ws₁.length)
    (hal : ∀ (i : ℕ) (h1 : i < circuits₁.length) (h2 : i < circuits₂.length) (j : ℕ) q₁ q₂,
      (adviceOpens threads d rng₁ i (blindCircuit d.n cs.blindingFactors rng₁.adviceRows i
        circuits₁[i]))[j]? = some q₁ →
      (adviceOpens threads d rng₂ i
        (blindCircuit d.n cs.blindingFactors rng₂.adviceRows i circuits₂[i]))[j]? = some q₂ →
      Alike pr (T j) q₁ q₂)
    (hpm : List.Forall₂ (List.Forall₂ (PermutedAlike pr T0)) pm₁ pm₂)
    (hpd : List.Forall₂ (List.Forall₂ (ProductAlike pr T0)) pd₁ pd₂)
    (hlp : List.Forall₂ (List.Forall₂ (ProductAlike pr T0)) lp₁ lp₂) :
    List.Forall₂ (OpensAlike pr T T0) (opensList P₁ rng₁ ws₁ pd₁ pm₁ lp₁)
      (opensList P₂ rng₂ ws₂ pd₂ pm₂ lp₂) := by
  have hwl₁ : ws₁.length = circuits₁.length := by rw [hw₁]; simp [witness, hl]
  have hwl₂ : ws₂.length = circuits₂.length := by rw [hw₂]; simp [witness, hl, hcl]
  have m1 : pd₂.length = ws₂.length := by rw [← hpd.length_eq, k1]; omega
  have m2 : pm₂.length = ws₂.length := by rw [← hpm.length_eq, k2]; omega
  have m3 : lp₂.length = ws₂.length := by rw [← hlp.length_eq, k3]; omega
  have L₁ := opensList_length (rng := rng₁) hi₁ ha₁ k1 k2 k3
  have L₂ := opensList_length (rng := rng₂) hi₂ ha₂ m1 m2 m3
  rw [List.forall₂_iff_get]
  refine ⟨by omega, fun i h1 h2 => ?_⟩
  have i1 : i < circuits₁.length := by omega
  have i2 : i < circuits₂.length := by omega
  rw [List.get_eq_getElem, List.get_eq_getElem, opens_getElem hw₁ hl hi₁ ha₁ k1 k2 k3 i h1 i1,
    opens_getElem hw₂ (hcl.trans hl) hi₂ ha₂ m1 m2 m3 i h2 i2]
  have q1 := List.Forall₂.get hpd (i := i) (by omega) (by omega)
  have q2 := List.Forall₂.get hpm (i := i) (by omega) (by omega)
  have q3 := List.Forall₂.get hlp (i := i) (by omega) (by omega)
  rw [List.get_eq_getElem, List.get_eq_getElem] at q1 q2 q3
  rw [List.getD_eq_getElem _ _ (by omega : i < pd₁.length),
    List.getD_eq_getElem _ _ (by omega : i < pm₁.length),
    List.getD_eq_getElem _ _ (by omega : i < lp₁.length),
    List.getD_eq_getElem _ _ (by omega : i < pd₂.length),
    List.getD_eq_getElem _ _ (by omega : i < pm₂.length),
    List.getD_eq_getElem _ _ (by omega : i < lp₂.length)]
  refine ⟨rfl, ?_, hal i i1 i2, ?_, ?_⟩
  · simp [adviceOpens, blindCircuit, hc₁ _ (List.getElem_mem i1), hc₂ _ (List.getElem_mem i2)]
  · rw [List.forall₂_map_left_iff, List.forall₂_map_right_iff]
    exact q1
  · rw [List.forall₂_map_left_iff, List.forall₂_map_right_iff]
    rw [List.forall₂_iff_get] at q2 q3 ⊢
    refine ⟨by simp [q2.1, q3.1], fun j j1 j2 => ?_⟩
    simp only [List.length_zip, Nat.lt_min] at j1 j2
    have r2 := q2.2 j j1.1 j2.1
    have r3 := q3.2 j j1.2 j2.2
    simp only [List.get_eq_getElem, List.getElem_zip] at r2 r3 ⊢
    exact ⟨r3, r2.1, r2.2⟩

theorem mapM_option_forall₂ {α α' β : Type*} {f : α → Option β} {g : α' → Option β}
    {R : α → α' → Prop} (h : ∀ a b, R a b → g b = f a) {l : List α} {m : List α'}
    (hl : List.Forall₂ R l m) : m.mapM g = l.mapM f := by
  induction hl with
  | nil => rfl
  | cons ha _ ih => rw [List.mapM_cons, List.mapM_cons, ih, h _ _ ha]

theorem mapS_length' {σ α β : Type*} {f : α → σ → Option (β × σ)} {l : List α} {c c' : σ}
    {r : List β} (h : mapS f l c = some (r, c')) : r.length = l.length := by
  induction l generalizing c r with
  | nil => cases h; rfl
  | cons a l ih =>
    simp only [mapS, Option.bind_eq_some_iff, Option.map_eq_some_iff] at h
    obtain ⟨⟨b, c1⟩, -, ⟨bs, c2⟩, h2, h3⟩ := h
    cases h3
    simpa using ih h2

/-- The points at which an advice column is looked at: the rotations of `x` at which the circuit
queries it, and `x₃`. -/
def advicePoints (d : Domain F) (cs : Cs F) (x x₃ : F) (j : ℕ) : Finset F :=
  insert x₃ ((((cs.adviceQueries.filter fun q => q.1 = j).map Prod.snd).toFinset).image
    (d.rotateOmega x))

/-- The points at which the columns of the arguments are looked at. -/
def argumentPoints (d : Domain F) (cs : Cs F) (x x₃ : F) : Finset F :=
  {x, d.rotateOmega x 1, d.rotateOmega x (-1),
    d.rotateOmega x (-((cs.blindingFactors : ℤ) + 1)), x₃}

omit [Module F A] [AddCommGroup A] [Field K] [LinearOrder K] in
theorem points_spec (hd : d.Valid) {cs : Cs F} (hrot : ∀ c, cs.distinctRotations c + 2 ≤ cs.blindingFactors)
    (h5 : 5 ≤ cs.blindingFactors) {x x₃ : F} (hx : x ^ d.n ≠ 1) (hx₃ : x₃ ^ d.n ≠ 1) :
    Points d cs x x₃ (advicePoints d cs x x₃) (argumentPoints d cs x x₃) ∧
    (∀ j, (advicePoints d cs x x₃ j).card ≤ cs.blindingFactors + 1) ∧
    (∀ j, ∀ s ∈ advicePoints d cs x x₃ j, s ^ d.n ≠ 1) ∧
    (argumentPoints d cs x x₃).card ≤ cs.blindingFactors ∧
    ∀ s ∈ argumentPoints d cs x x₃, s ^ d.n ≠ 1 := by
  refine ⟨⟨?_, ?_, ?_, ?_, ?_, ?_, ?_⟩, ?_, ?_, ?_, ?_⟩
  · intro q hq
    refine Finset.mem_insert_of_mem (Finset.mem_image_of_mem _ ?_)
    rw [List.mem_toFinset, List.mem_map]
    exact ⟨q, by simp [hq], rfl⟩
  · intro j; exact Finset.mem_insert_self _ _
  · simp [argumentPoints]
  · simp [argumentPoints]
  · simp [argumentPoints]
  · simp [argumentPoints]
  · simp [argumentPoints]
  · intro j
    refine (Finset.card_insert_le _ _).trans ?_
    have := Finset.card_image_le (s := ((cs.adviceQueries.filter fun q => q.1 = j).map
      Prod.snd).toFinset) (f := d.rotateOmega x)
    have h2 := hrot j
    unfold Cs.distinctRotations at h2
    omega
  · intro j s hs
    rcases Finset.mem_insert.1 hs with rfl | hs
    · exact hx₃
    · obtain ⟨r, -, rfl⟩ := Finset.mem_image.1 hs
      rw [rotate_pow hd]; exact hx
  · exact Finset.card_le_five.trans h5
  · intro s hs
    simp only [argumentPoints, Finset.mem_insert, Finset.mem_singleton] at hs
    rcases hs with rfl | rfl | rfl | rfl | rfl
    · exact hx
    · rw [rotate_pow hd]; exact hx
    · rw [rotate_pow hd]; exact hx
    · rw [rotate_pow hd]; exact hx
    · exact hx₃

set_option maxHeartbeats 2000000 in
theorem createProof_hiding_aux {e : Enc F K A} (he : e.Valid) (hs : Setup threads pr d)
    (ht : threads ≠ 0) (hw : ∀ a : A, ∃ r : F, r • pr.w = a) (hw0 : pr.w ≠ 0)
    {cs : Cs F} (hdeg : cs.degree ≤ d.quotientPolyDegree + 1) (hr : Ready cs d.n)
    (hrot : ∀ c, cs.distinctRotations c + 2 ≤ cs.blindingFactors) (h5 : 5 ≤ cs.blindingFactors)
    (hbf : cs.blindingFactors + 1 < d.n) (hn : d.n < 2 ^ 32)
    (hcols : cs.lookups ≠ [] → cs.numFixed + cs.numAdvice + cs.numInstance ≠ 0) {delta repr : F}
    {fv : List (List F)} (hfl : fv.length = cs.numFixed) (hf : ∀ v ∈ fv, v.length = d.n)
    {calls : List (Verif.Copy.Call Column)}
    (hrows : ∀ c ∈ calls, c.leftRow < d.n - (cs.blindingFactors + 1) ∧
      c.rightRow < d.n - (cs.blindingFactors + 1))
    {pk : Pk F}
    (hpk : Verif.Plonk.keygenPk threads d cs.blindingFactors fv (permsOf d cs delta calls) = some pk)
    {rng₁ : Rng F} {circuits₁ circuits₂ instances : List (List (List F))}
    (hc₁ : ∀ a ∈ circuits₁, a.length = cs.numAdvice ∧ ∀ v ∈ a, v.length = d.n)
    (hc₂ : ∀ a ∈ circuits₂, a.length = cs.numAdvice ∧ ∀ v ∈ a, v.length = d.n)
    (hcl : circuits₂.length = circuits₁.length)
    (hsat₁ : ∀ w ∈ witness d.n cs.blindingFactors rng₁ circuits₁ instances, Sat d cs fv calls w)
    (hsat₂ : ∀ rng : Rng F, ∀ w ∈ witness d.n cs.blindingFactors rng circuits₂ instances,
      Sat d cs fv calls w) {st st' : WState F}
    (h : createProof threads e pr d cs delta repr rng₁ pk circuits₁ instances st = .ok ((), st')) :
    ∃ (theta beta gamma y x x₁ x₂ x₃ x₄ xi z : F) (us : List F), us.length = pr.k ∧
      st'.trace = us.reverse ++ z :: xi :: x₄ :: x₃ :: x₂ :: x₁ :: x :: y :: gamma :: beta :: theta ::
        st.trace ∧
      (x ^ d.n ≠ 1 → x₃ ^ d.n ≠ 1 → x₃ ^ d.n ≠ x ^ d.n → xi ≠ 0 →
        us.map (·⁻¹) ≠ unlucky x₃ pr.k →
        (∀ w ∈ witness d.n cs.blindingFactors rng₁ circuits₁ instances,
          Nonzero d cs delta ⟨theta, beta, gamma, y⟩ fv w) →
        (∀ rng : Rng F, ∀ w ∈ witness d.n cs.blindingFactors rng circuits₂ instances,
          Nonzero d cs delta ⟨theta, beta, gamma, y⟩ fv w) →
        ∃ rng₂ : Rng F,
          createProof threads e pr d cs delta repr rng₂ pk circuits₂ instances st = .ok ((), st')) := by
  have hd := hs.domain
  have hnn : d.n ≠ 0 := by omega
  obtain ⟨hpl, hpn⟩ := Verif.Permutation.permPolys_length d.omega delta
    (Verif.Permutation.keyMapping cs.permutation d.n calls)
  obtain ⟨pk', fp, pp, p0, pB, pL, hpk', ⟨kf, kfp, -, kp, kpp, -, -, -, -⟩, ⟨fpl, -⟩, ⟨ppl, -⟩,
    -, -, -, -⟩ :=
    Verif.Plonk.keygenPk_spec hd ht cs.blindingFactors hbf fv (permsOf d cs delta calls) hf hpn
  cases hpk.symm.trans hpk'
  have hG : Closed fun _ : List F => True := fun _ _ _ _ => trivial
  -- the first run
  unfold createProof at h
  obtain ⟨ws₁, s1, q1, h⟩ := bind_ok h
  obtain ⟨P₁, hP₁, h⟩ := panics_bind_ok h
  obtain ⟨⟨theta, beta, gamma, pm₁, pd₁, lp₁, ctx₁⟩, s2, q2, h⟩ := bind_ok h
  obtain ⟨⟨x, random₁, pieces₁⟩, s3, q3, h⟩ := bind_ok h
  dsimp only at h q3
  obtain ⟨hws₁, hcil, hfits, ht1, hcolumns⟩ := columns_steer hs ht hw hbf.le hc₁ hc₂ hcl q1
  have hsat₁' : ∀ w ∈ ws₁, Sat d cs fv calls w := by rw [hws₁]; exact hsat₁
  obtain ⟨_, hP₁', hprep₁⟩ := prepared hs ht hbf hcols hfl hf hpk hsat₁'
  cases hP₁.symm.trans hP₁'
  obtain ⟨i1, a1, l1, -, -⟩ := prepare_spec hs ht hP₁ (fun w hw => (hsat₁' w hw).inst)
    (fun w hw => (hsat₁' w hw).advice)
  obtain ⟨_, _, -, -, ht2, -, -, -, -, hok₁, -⟩ := (products_sim (tr := s1.trace) hG he hs ht cs delta
    rng₁ pk (by rw [kp]; exact hpl) ws₁ P₁ l1).run s1.absorbed s1.out _ s2 q2 trivial
  dsimp only at ht2 hok₁
  obtain ⟨y, ht3, hrand, hpl₁, hquo₁, hquotient⟩ := quotient_steer hs ht hw q3
  have hsz₁ := opens_sized (rng := rng₁) hs ht i1 a1 (fun w hw => (hsat₁' w hw).inst)
    (fun w hw => (hsat₁' w hw).advice) hok₁.permuted_len hok₁.products_len hok₁.lookup_len
  have hr₁ : random₁.length = d.n := by rw [hrand]; simp [randomPoly]
  obtain ⟨x₁, x₂, x₃, x₄, xi, z, us, hus, ht4, hopen⟩ := open_steer hs ht hs.params hw hw0 hsz₁
    (by rw [kfp]; exact fpl) (by rw [kpp]; exact ppl) hr₁ hpl₁ h
  refine ⟨theta, beta, gamma, y, x, x₁, x₂, x₃, x₄, xi, z, us, hus, ?_, ?_⟩
  · rw [ht4, ht3, ht2, ht1]
  intro hx hx₃ hxx hxi hul hnz₁ hnz₂
  rw [← hws₁] at hnz₁
  obtain ⟨hpts, hT, hTx, hT0, hT0x⟩ := points_spec hd hrot h5 hx hx₃
  -- the second run up to the products
  obtain ⟨AR, AB, hcol⟩ := hcolumns _ hT hTx
  obtain ⟨ws₂, hws₂⟩ : ∃ ws₂, ws₂ = witness d.n cs.blindingFactors
    { rng₁ with adviceRows := AR, adviceBlind := AB } circuits₂ instances := ⟨_, rfl⟩
  have hsat₂' : ∀ w ∈ ws₂, Sat d cs fv calls w := by rw [hws₂]; exact hsat₂ _
  have hnz₂' : ∀ w ∈ ws₂, Nonzero d cs delta ⟨theta, beta, gamma, y⟩ fv w := by
    rw [hws₂]; exact hnz₂ _
  obtain ⟨P₂, hP₂, hprep₂⟩ := prepared hs ht hbf hcols hfl hf hpk hsat₂'
  obtain ⟨i2, a2, l2, -, -⟩ := prepare_spec hs ht hP₂ (fun w hw => (hsat₂' w hw).inst)
    (fun w hw => (hsat₂' w hw).advice)
  have hwl : ws₁.length = ws₂.length := by
    rw [hws₁, hws₂]; simp [witness, hcl]
  obtain ⟨permuted, permutedBlind, permutation, productBlind, lookup, pm₂, pd₂, lp₂, ctx₂, hpm, hpd,
    hlp, hprod⟩ := products_steer hs ht hw hr hbf hn hT0 hT0x hfl hf hrows kf kp hsat₂' hnz₂' hwl
      hprep₁ hprep₂ q2
  obtain ⟨_, _, -, -, -, -, -, -, -, hok₂, -⟩ := (products_sim (tr := s1.trace) hG he hs ht cs delta
    { rng₁ with
      adviceRows := AR, adviceBlind := AB, permuted := permuted, permutedBlind := permutedBlind
      permutation := permutation, productBlind := productBlind, lookup := lookup } pk
      (by rw [kp]; exact hpl) ws₂ P₂ l2).run s1.absorbed s1.out _ s2
        (hprod { rng₁ with adviceRows := AR, adviceBlind := AB }) trivial
  dsimp only at hok₂
  -- the two quotients
  obtain ⟨_, proofs₁, pcs₁, v1, v2, -, -, v3⟩ := Verif.Plonk.verifier_checks_prover hd threads ht cs
    hdeg hr hbf hn hcols delta ⟨theta, beta, gamma, y⟩ rng₁.permuted rng₁.permutation rng₁.lookup fv
    hfl hf calls hrows ws₁ hsat₁' hnz₁
  cases hpk.symm.trans v1
  obtain ⟨exprs₁, hex₁, hcon₁⟩ := hquo₁
  cases (createProof_combine hP₁ hok₁ hex₁ hcon₁).symm.trans v2
  obtain ⟨_, proofs₂, pieces₂, w1, w2, -, -, w3⟩ := Verif.Plonk.verifier_checks_prover hd threads ht cs
    hdeg hr hbf hn hcols delta ⟨theta, beta, gamma, y⟩ permuted permutation lookup fv
    hfl hf calls hrows ws₂ hsat₂' hnz₂'
  cases hpk.symm.trans w1
  have hquo₂ := createProof_split hP₂ hok₂ w2
  obtain ⟨hpl₂, hBlind, hhc, hquotient⟩ := hquotient P₂ pm₂ pd₂ lp₂ ctx₂ pieces₂ hquo₂
  obtain ⟨exprs₂, hex₂, hcon₂⟩ := hquo₂
  cases (createProof_combine hP₂ hok₂ hex₂ hcon₂).symm.trans w2
  obtain ⟨fe₁, es₁, v₁, h₁, b1, b2, b3, b4, b5⟩ := v3 x hx
  obtain ⟨fe₂, es₂, v₂, h₂, g1, g2, g3, g4, g5⟩ := w3 x hx
  -- what is opened
  have hlen₁ : pd₁.length = ws₁.length ∧ pm₁.length = ws₁.length ∧ lp₁.length = ws₁.length := by
    obtain ⟨_, _, r1, r2, r3⟩ := hok₁.run
    have r1 := mapS_length' r1
    have r2 := mapS_length' r2
    have r3 := mapS_length' r3
    simp only [List.length_map] at r1 r2 r3
    rw [l1] at r1
    exact ⟨r2, r1, r3.trans r1⟩
  have hoal := opens_alike (P₁ := P₁) (P₂ := P₂) (pr := pr) (rng₂ := { rng₁ with adviceRows := AR, adviceBlind := AB })
    hws₁ hws₂ hcil hcl (fun a ha => (hc₁ a ha).1) (fun a ha => (hc₂ a ha).1) i1 a1 i2 a2 hlen₁.1
    hlen₁.2.1 hlen₁.2.2 (hcol rng₁).2 hpm hpd hlp
  rw [opens_proofs (rng := rng₁) i1 a1] at b2
  rw [opens_proofs (rng := { rng₁ with adviceRows := AR, adviceBlind := AB }) i2 a2] at g2
  have hes : es₂ = es₁ := by
    rw [Verif.Plonk.mapM_map'] at b2 g2
    rw [mapM_option_forall₂ (fun a b hab => hab.circuitEvals hpts) hoal] at g2
    exact Option.some.inj (g2.symm.trans b2)
  have hval : evalPolynomial h₂ x = evalPolynomial h₁ x := by
    rw [b1] at g1
    cases g1
    rw [hes, b3] at g3
    cases g3
    rw [b5, g5]
  -- the random polynomial
  obtain ⟨r, hrr⟩ := blind_free hd [] d.n (by simp) {x, x₃} (Finset.card_le_two.trans (by omega)) (by
      intro s hs
      rcases Finset.mem_insert.1 hs with rfl | hs
      · exact hx
      · rw [Finset.mem_singleton.1 hs]; exact hx₃)
    (fun s => if s = x₃ then evalPolynomial random₁ x₃
      + x₁ * (evalPolynomial h₁ x₃ - evalPolynomial h₂ x₃) else evalPolynomial random₁ s)
  have hrl : ((List.range d.n).map r).length = d.n := by simp
  obtain ⟨random₂, hr₂, hr₂x, hr₂x₃⟩ : ∃ random₂ : List F, random₂.length = d.n ∧
      evalPolynomial random₂ x = evalPolynomial random₁ x ∧
      evalPolynomial random₂ x₃ = evalPolynomial random₁ x₃
        + x₁ * (evalPolynomial h₁ x₃ - evalPolynomial h₂ x₃) := by
    have k2 := (coeffs_spec hs ht _ hrl).2
    have k := hrr _ k2 (by rw [coeffs_rows hs ht _ hrl]; rfl)
    refine ⟨_, k2, ?_, ?_⟩
    · rw [k x (by simp), if_neg (by rintro rfl; exact hxx rfl)]
    · rw [k x₃ (by simp), if_pos rfl]
  obtain ⟨randomBlind, hrb⟩ := blind_exists hw random₂ (commitOf pr (random₁, rng₁.randomBlind))
  have hsz₂ := opens_sized (rng := { rng₁ with adviceRows := AR, adviceBlind := AB }) hs ht i2 a2
    (fun w hw => (hsat₂' w hw).inst) (fun w hw => (hsat₂' w hw).advice) hok₂.permuted_len
    hok₂.products_len hok₂.lookup_len
  obtain ⟨qBlind, ipa, hfin⟩ := hopen hxi hul hxx _ _ hpts _ hsz₂ hoal pieces₂ hpl₂ hBlind hhc h₁ h₂
    b4 g4 hval random₂ randomBlind hr₂ hrb hr₂x (by rw [hr₂x₃]; ring)
  refine ⟨⟨AR, AB, permuted, permutedBlind, permutation, productBlind, lookup,
    fun i => random₂.getD i 0, randomBlind, hBlind, qBlind, ipa⟩, ?_⟩
  unfold createProof
  refine ok_bind ((hcol ⟨AR, AB, permuted, permutedBlind, permutation, productBlind, lookup,
    fun i => random₂.getD i 0, randomBlind, hBlind, qBlind, ipa⟩).1) ?_
  refine ok_bind (ok_panics (a := P₂) ?_ _) ?_
  · rw [← hP₂, hws₂]; rfl
  refine ok_bind (a := (theta, beta, gamma, pm₂, pd₂, lp₂, ctx₂)) (s1 := s2) ?_ ?_
  · have := hprod ⟨AR, AB, permuted, permutedBlind, permutation, productBlind, lookup,
      fun i => random₂.getD i 0, randomBlind, hBlind, qBlind, ipa⟩
    rw [hws₂] at this
    exact this
  refine ok_bind (a := (x, random₂, pieces₂)) (s1 := s3) ?_ ?_
  · exact hquotient random₂ randomBlind hr₂ hrb ⟨AR, AB, permuted, permutedBlind, permutation,
      productBlind, lookup, fun i => random₂.getD i 0, randomBlind, hBlind, qBlind, ipa⟩
  · have := hfin ⟨AR, AB, permuted, permutedBlind, permutation,
      productBlind, lookup, fun i => random₂.getD i 0, randomBlind, hBlind, qBlind, ipa⟩
    rw [hws₂] at this
    exact this

/-- **C77**: a proof does not say which witness it was made from.  Take the challenges of a finished
run of `create_proof`.  Unless they are exceptional, every other satisfying assignment of the same
circuits and instances has random choices with which `create_proof` writes the same bytes and
leaves the same transcript.  Every commitment and every opening is explained by either.  The
assignment satisfies the circuits whatever its blinding rows are; every group element is a multiple
of the blinding generator. -/
theorem proof_hides_witness {threads' j k : ℕ} {c : Consts F} (hc : c.Valid)
    {hasher : Bytes → A} (ht : threads ≠ 0) (ht' : threads' ≠ 0)
    (hd : Verif.Domain.new c j k = some d) (hpr : Commitment.Params.new threads' c hasher k = some pr)
    (hw : ∀ a : A, ∃ r : F, r • pr.w = a) (hw0 : pr.w ≠ 0)
    {e : Enc F K A} (he : e.Valid) (cs : Cs F) (hdeg : cs.degree ≤ j) (hr : Ready cs d.n)
    (hrot : ∀ c, cs.distinctRotations c + 2 ≤ cs.blindingFactors)
    (hbf : cs.blindingFactors + 1 < d.n)
    (hcols : cs.lookups ≠ [] → cs.numFixed + cs.numAdvice + cs.numInstance ≠ 0) (delta repr : F)
    (fv : List (List F)) (hfl : fv.length = cs.numFixed) (hf : ∀ v ∈ fv, v.length = d.n)
    (calls : List (Verif.Copy.Call Column))
    (hrows : ∀ c ∈ calls, c.leftRow < d.n - (cs.blindingFactors + 1) ∧
      c.rightRow < d.n - (cs.blindingFactors + 1))
    (pk : Pk F)
    (hpk : Verif.Plonk.keygenPk threads d cs.blindingFactors fv (permsOf d cs delta calls) = some pk)
    (rng₁ : Rng F) (circuits₁ circuits₂ instances : List (List (List F)))
    (hc₁ : ∀ a ∈ circuits₁, a.length = cs.numAdvice ∧ ∀ v ∈ a, v.length = d.n)
    (hc₂ : ∀ a ∈ circuits₂, a.length = cs.numAdvice ∧ ∀ v ∈ a, v.length = d.n)
    (hcl : circuits₂.length = circuits₁.length)
    (hsat₁ : ∀ w ∈ witness d.n cs.blindingFactors rng₁ circuits₁ instances, Sat d cs fv calls w)
    (hsat₂ : ∀ rng : Rng F, ∀ w ∈ witness d.n cs.blindingFactors rng circuits₂ instances,
      Sat d cs fv calls w) (st st' : WState F)
    (h : createProof threads e pr d cs delta repr rng₁ pk circuits₁ instances st = .ok ((), st')) :
    ∃ (theta beta gamma y x x₁ x₂ x₃ x₄ xi z : F) (us : List F), us.length = k ∧
      st'.trace = us.reverse ++ z :: xi :: x₄ :: x₃ :: x₂ :: x₁ :: x :: y :: gamma :: beta :: theta ::
        st.trace ∧
      (x ^ d.n ≠ 1 → x₃ ^ d.n ≠ 1 → x₃ ^ d.n ≠ x ^ d.n → xi ≠ 0 → us.map (·⁻¹) ≠ unlucky x₃ k →
        (∀ w ∈ witness d.n cs.blindingFactors rng₁ circuits₁ instances,
          Nonzero d cs delta ⟨theta, beta, gamma, y⟩ fv w) →
        (∀ rng : Rng F, ∀ w ∈ witness d.n cs.blindingFactors rng circuits₂ instances,
          Nonzero d cs delta ⟨theta, beta, gamma, y⟩ fv w) →
        ∃ rng₂ : Rng F,
          createProof threads e pr d cs delta repr rng₂ pk circuits₂ instances st = .ok ((), st')) := by
  obtain ⟨hs, hk⟩ := setup_of_new ht ht' hc hd hpr
  obtain ⟨h1, -⟩ := Verif.Domain.new_spec c hc j k
  obtain ⟨hv, hdk, hq, -⟩ := h1 d hd
  have hk32 : k < 32 := by
    by_contra hk32
    unfold Commitment.Params.new at hpr; rw [if_pos hk32] at hpr; cases hpr
  have hn : d.n < 2 ^ 32 := by
    rw [hv.n_eq, hdk]; exact Nat.pow_lt_pow_right (by decide) hk32
  have h5 : 5 ≤ cs.blindingFactors := by
    unfold Cs.blindingFactors
    dsimp only
    omega
  rw [← hk]
  exact createProof_hiding_aux he hs ht hw hw0 (by omega) hr hrot h5 hbf hn hcols hfl hf hrows hpk hc₁
    hc₂ hcl hsat₁ hsat₂ h

/-! ## A concrete pair of witnesses -/

section Example

open Verif.Toy Verif.Plonk

/-- Gate `q·(a·a - a)`, lookup of `a` in the second fixed column, permutation over the advice
column. -/
def exCs₂ : Cs (ZMod 97) :=
  { numFixed := 2, numAdvice := 1
    gates := [[.product (.fixed ⟨0, 0, 0⟩) (.sum (.product exAdvice exAdvice) (.negated exAdvice))]]
    adviceQueries := [(0, 0)], numAdviceQueries := [1], fixedQueries := [(0, 0), (1, 0)]
    permutation := [⟨.advice, 0⟩], lookups := [⟨[exAdvice], [.fixed ⟨1, 1, 0⟩]⟩] }

def exFixed₂ : List (List (ZMod 97)) := [[1, 1, 0, 0, 0, 0, 0, 0], [0, 1, 2, 3, 4, 5, 6, 7]]

/-- Two witnesses: both cells are one, or both are zero. -/
def exOnes : List (List (List (ZMod 97))) := [[[1, 1, 0, 0, 0, 0, 0, 0]]]
def exZeros : List (List (List (ZMod 97))) := [[[0, 0, 0, 0, 0, 0, 0, 0]]]

theorem ex_bf₂ : exCs₂.blindingFactors = 5 := by decide

theorem ex_rot₂ (c : ℕ) : exCs₂.distinctRotations c + 2 ≤ exCs₂.blindingFactors := by
  have : exCs₂.distinctRotations c ≤ 1 := (List.toFinset_card_le _).trans (by
    rw [List.length_map]; exact List.length_filter_le _ _)
  rw [ex_bf₂]; omega

theorem exReady₂ : Ready exCs₂ 8 := by
  constructor <;> simp [exCs₂, exAdvice, Cs.Covers, Verif.Expr.Expr.sels, Verif.Lookup.Ok, colOk]

def exRun₂ : Option (List G × G) :=
  (Verif.Domain.new consts97 4 3).bind fun d =>
  (Commitment.Params.new 2 consts97 exHash 3).bind fun pr =>
  (keygenPk 2 d 5 exFixed₂ (permsOf d exCs₂ 5 exCalls)).bind fun pk =>
  (Verif.Protocol.createProof 2 (enc sumHash uniform) pr d exCs₂ 5 4 exRng pk exOnes [[]]
    W.init).toOption.map fun r => (r.2.trace.reverse, pr.w)

theorem exRun₂_eq : exRun₂ = some ([20, 2, 12, 21, 66, 11, 13, 55, 46, 51, 2, 90, 28, 79], 2) := by
  decide +kernel

theorem ex_witness {n : ℕ} (hn : n = 8) (rng : Rng G) (a b : G) :
    witness n exCs₂.blindingFactors rng [[[a, b, 0, 0, 0, 0, 0, 0]]] [[]]
      = [⟨[[a, b, rng.adviceRows 0 0 0, rng.adviceRows 0 0 1, rng.adviceRows 0 0 2,
          rng.adviceRows 0 0 3, rng.adviceRows 0 0 4, rng.adviceRows 0 0 5]], []⟩] := by
  rw [hn, ex_bf₂]; rfl

theorem ex_cell {a r₀ r₁ r₂ r₃ r₄ r₅ : G} :
    ∀ c ∈ Verif.Permutation.usable exCs₂.permutation 8 5,
      Verif.Permutation.cellVal (colValues exFixed₂ ⟨[[a, a, r₀, r₁, r₂, r₃, r₄, r₅]], []⟩) c = a := by
  rintro ⟨i, j⟩ hj
  have hj : (j : ℕ) < 2 := (Finset.mem_filter.1 hj).2
  have hi : i = ⟨0, by decide⟩ := Fin.ext (Nat.lt_one_iff.1 i.2)
  subst hi
  obtain ⟨j, hj8⟩ := j
  interval_cases j <;> rfl

theorem ex_sat {d : Domain G} (hn : d.n = 8) {a : G} (ha : a = 0 ∨ a = 1) (r₀ r₁ r₂ r₃ r₄ r₅ : G) :
    Sat d exCs₂ exFixed₂ exCalls ⟨[[a, a, r₀, r₁, r₂, r₃, r₄, r₅]], []⟩ := by
  refine ⟨rfl, rfl, ?_, ?_, ?_, ?_, ?_⟩
  · rw [hn]; simp
  · rw [hn]; simp
  · rw [hn]
    intro j hj e he
    simp only [exCs₂, List.flatten_cons, List.flatten_nil, List.append_nil, List.mem_singleton] at he
    subst he
    interval_cases j <;> rcases ha with rfl | rfl <;>
      first | exact zero_mul _ | exact (show (1 : G) * (0 * 0 + -0) = 0 by decide) |
        exact (show (1 : G) * (1 * 1 + -1) = 0 by decide)
  · rw [hn]; exact (Verif.Permutation.copiesHold_iff (bf := 5) (by decide) _).2 fun c hc =>
      (ex_cell _ ((Verif.Permutation.keyMapping_usable (by decide) c).2 hc)).trans (ex_cell c hc).symm
  · rw [hn, ex_bf₂]
    intro l hl i hi
    simp only [exCs₂, List.mem_singleton] at hl
    subst hl
    rcases ha with rfl | rfl
    · refine ⟨0, by decide, ?_⟩
      interval_cases i <;> rfl
    · refine ⟨1, by decide, ?_⟩
      interval_cases i <;> rfl

theorem ex_nonzero {d : Domain G} (hn : d.n = 8) (homega : d.omega = 64) {a : G} (ha : a = 0 ∨ a = 1)
    (r₀ r₁ r₂ r₃ r₄ r₅ : G) :
    Nonzero d exCs₂ 5 ⟨20, 2, 12, 21⟩ exFixed₂ ⟨[[a, a, r₀, r₁, r₂, r₃, r₄, r₅]], []⟩ := by
  constructor
  · rw [hn, ex_bf₂, homega]
    intro c hc
    rw [ex_cell c hc]
    revert c
    rcases ha with rfl | rfl <;> decide +kernel
  · rw [hn, ex_bf₂]
    intro l hl i hi
    simp only [exCs₂, List.mem_singleton] at hl
    subst hl
    have h1 : Verif.Lookup.inputVal ⟨[exAdvice], [.fixed ⟨1, 1, 0⟩]⟩ 8 (20 : G)
        (cols exFixed₂ ⟨[[a, a, r₀, r₁, r₂, r₃, r₄, r₅]], []⟩) i = a := by
      interval_cases i <;> simp [Verif.Lookup.inputVal, Verif.Lookup.compressSpec] <;> rfl
    have h2 : Verif.Lookup.tableVal ⟨[exAdvice], [.fixed ⟨1, 1, 0⟩]⟩ 8 (20 : G)
        (cols exFixed₂ ⟨[[a, a, r₀, r₁, r₂, r₃, r₄, r₅]], []⟩) i = i := by
      interval_cases i <;> simp [Verif.Lookup.tableVal, Verif.Lookup.compressSpec] <;> rfl
    refine ⟨?_, ?_⟩
    · rw [h1]; rcases ha with rfl | rfl <;> decide
    · rw [h2]; interval_cases i <;> decide

/-- **C77, a case**: the proof made from the witness of ones is also a proof made from the witness of
zeros, under other randomness. -/
theorem exRun₂_hides : ∃ d pr pk st', Verif.Domain.new consts97 4 3 = some d ∧
    Commitment.Params.new 2 consts97 exHash 3 = some pr ∧
    keygenPk 2 d 5 exFixed₂ (permsOf d exCs₂ 5 exCalls) = some pk ∧
    Verif.Protocol.createProof 2 (enc sumHash uniform) pr d exCs₂ 5 4 exRng pk exOnes [[]]
      W.init = .ok ((), st') ∧
    ∃ rng₂, Verif.Protocol.createProof 2 (enc sumHash uniform) pr d exCs₂ 5 4 rng₂ pk exZeros [[]]
      W.init = .ok ((), st') := by
  have h := exRun₂_eq
  unfold exRun₂ at h
  obtain ⟨d, hd, h⟩ := Option.bind_eq_some_iff.1 h
  obtain ⟨pr, hpr, h⟩ := Option.bind_eq_some_iff.1 h
  obtain ⟨pk, hpk, h⟩ := Option.bind_eq_some_iff.1 h
  obtain ⟨⟨_, st'⟩, hst, htr⟩ := Option.map_eq_some_iff.1 h
  have hst : Verif.Protocol.createProof 2 (enc sumHash uniform) pr d exCs₂ 5 4 exRng pk exOnes [[]]
      W.init = .ok ((), st') := by
    rcases hc : Verif.Protocol.createProof 2 (enc sumHash uniform) pr d exCs₂ 5 4 exRng pk exOnes [[]]
      W.init with err | ⟨u, s⟩
    · rw [hc] at hst; cases hst
    · rw [hc] at hst; cases hst; rfl
  refine ⟨d, pr, pk, st', hd, hpr, hpk, hst, ?_⟩
  obtain ⟨htr, hw⟩ := Prod.mk.inj htr
  have htr : st'.trace = [20, 2, 12, 21, 66, 11, 13, 55, 46, 51, 2, 90, 28, 79].reverse := by
    rw [← htr, List.reverse_reverse]
  obtain ⟨h1, -⟩ := Verif.Domain.new_spec consts97 consts97_valid 4 3
  obtain ⟨hv, hk, hq, _, -⟩ := h1 d hd
  have hn : d.n = 8 := by rw [hv.n_eq, hk]; rfl
  have homega : d.omega = 64 := by
    have : (Verif.Domain.new consts97 4 3).map (·.omega) = some 64 := by decide +kernel
    rw [hd] at this
    exact Option.some.inj this
  have hsat : ∀ a : G, a = 0 ∨ a = 1 → ∀ rng : Rng G,
      ∀ w ∈ witness d.n exCs₂.blindingFactors rng [[[a, a, 0, 0, 0, 0, 0, 0]]] [[]],
        Sat d exCs₂ exFixed₂ exCalls w ∧ Nonzero d exCs₂ 5 ⟨20, 2, 12, 21⟩ exFixed₂ w := by
    intro a ha rng w hw
    rw [ex_witness hn, List.mem_singleton] at hw
    subst hw
    exact ⟨ex_sat hn ha _ _ _ _ _ _, ex_nonzero hn homega ha _ _ _ _ _ _⟩
  obtain ⟨theta, beta, gamma, y, x, x₁, x₂, x₃, x₄, xi, z, us, hus, htr', hall⟩ :=
    proof_hides_witness consts97_valid (by decide) (by decide) hd hpr
    (fun a => ⟨a / 2, by rw [hw]; exact div_mul_cancel₀ a (by decide)⟩) (by rw [hw]; decide)
    (enc_valid sumHash uniform) exCs₂ (by decide) (hn ▸ exReady₂) ex_rot₂
    (by rw [ex_bf₂, hn]; decide) (by decide) 5 4 exFixed₂ rfl (by rw [hn]; decide) exCalls
    (by rw [hn, ex_bf₂]; decide) pk (by rw [ex_bf₂]; exact hpk) exRng exOnes exZeros [[]]
    (by rw [hn]; decide) (by rw [hn]; decide) rfl
    (fun w hw => (hsat 1 (.inr rfl) exRng w hw).1) (fun rng w hw => (hsat 0 (.inl rfl) rng w hw).1)
    W.init st' hst
  obtain ⟨u₁, u₂, u₃, rfl⟩ := List.length_eq_three.1 hus
  rw [htr] at htr'
  simp only [List.reverse_cons, List.reverse_nil, List.nil_append, List.cons_append, List.cons.injEq,
    W.init] at htr'
  obtain ⟨rfl, rfl, rfl, rfl, rfl, rfl, rfl, rfl, rfl, rfl, rfl, rfl, rfl, rfl, -⟩ := htr'
  exact hall (by rw [hn]; decide +kernel) (by rw [hn]; decide +kernel) (by rw [hn]; decide +kernel)
    (by decide) (by decide +kernel) (fun w hw => (hsat 1 (.inr rfl) exRng w hw).2)
    (fun rng w hw => (hsat 0 (.inl rfl) rng w hw).2)

end Example

end Verif.Hiding
