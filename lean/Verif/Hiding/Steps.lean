import Verif.Hiding.Steer

/-!
# Steering the permuted columns and the product columns (C77)
-/

namespace Verif.Hiding

open Verif.Cs (Cs Column Lookup)
open Verif.Domain (Domain)
open Verif.PolyArith (evalPolynomial)
open Verif.Plonk (Pk Circuit Leaves Permuted Product Challenges CircuitProof CircuitEvals mapS
  register rows Good VGood At ev PermutedOk permsOf colValues Sat Nonzero Ready cols)
open Verif.Msm Verif.Transcript Verif.Multicore
open Verif.Multiopen (Query Commitment commitOf)
open Verif.Ipa (ParamsOk)
open Verif.Protocol

variable {F K A : Type} [Field F] [LinearOrder F] [AddCommGroup A] [Module F A] [Field K]
  {threads : ℕ} {pr : Params A} {d : Domain F}

omit [LinearOrder F] in
/-- A polynomial is determined by its values on the rows. -/
theorem rows_eval (hd : d.Valid) {p q : List F} (hp : p.length = d.n) (hq : q.length = d.n)
    (h : rows d p = rows d q) (s : F) : evalPolynomial p s = evalPolynomial q s := by
  have key : Verif.PolyArith.toPoly p = Verif.PolyArith.toPoly q := by
    refine Verif.Vanishing.Interpolates.unique hd
      (v := fun i => (Verif.PolyArith.toPoly p).eval (d.omega ^ i))
      ⟨Verif.Plonk.toPoly_degree hp, fun _ _ => rfl⟩ ⟨Verif.Plonk.toPoly_degree hq, fun i hi => ?_⟩
    have e1 := rows_getElem? p i hi
    have e2 := rows_getElem? q i hi
    rw [h, e2] at e1
    exact Option.some.inj e1
  rw [Verif.PolyArith.evalPolynomial_eq, Verif.PolyArith.evalPolynomial_eq, key]

theorem rowsW_lengths (hs : Setup threads pr d) (ht : threads ≠ 0) {e : Enc F K A} {rng : Rng F}
    {zs : List (List F)} : ∀ {ctx ctx' : List (List F)} {st st' : WState F}
      {ys : List (Product F × F)},
      mapSW (commitRowsW threads e pr d rng) zs ctx st = .ok ((ys, ctx'), st') →
      ctx'.length = ctx.length + zs.length := by
  induction zs with
  | nil => intro ctx ctx' st st' ys h; cases h; rfl
  | cons z zs ih =>
    intro ctx ctx' st st' ys h
    unfold mapSW at h
    obtain ⟨⟨y₁, c₁⟩, s₁, h1, h⟩ := bind_ok h
    obtain ⟨⟨ys', c₁'⟩, s₂, h2, h⟩ := bind_ok h
    obtain ⟨⟨hy, hc⟩, hs'⟩ : ((_ = ys) ∧ (_ = ctx')) ∧ _ = st' := by
      simpa [pure, StateT.pure, Except.pure] using h
    subst hy hc hs'
    obtain ⟨p, b⟩ := y₁
    have := rows_length' ((rowsW_iff hs ht).1 h1).1
    have := ih h2
    simp only [List.length_cons]
    omega

/-! ### Permuted columns -/

theorem permutedW_iff (hs : Setup threads pr d) (ht : threads ≠ 0) {e : Enc F K A} {bf : ℕ}
    {theta : F} {rng : Rng F} {P : Prep F} {v c : Leaves} {l : Lookup F}
    {ctx ctx' : List (List F)} {p : Permuted F} {b : F × F} {st st' : WState F} :
    commitPermutedW threads e pr d bf theta rng P v c l ctx st = .ok (((p, b), ctx'), st') ↔
      Verif.Plonk.commitPermuted threads d bf theta rng.permuted P.vctx P.vf v P.cf c l ctx
        = some (p, ctx') ∧ b = rng.permutedBlind ctx.length ∧
      ∃ s, W.writePoint e (commitOf pr (p.aPoly, b.1)) st = .ok ((), s) ∧
        W.writePoint e (commitOf pr (p.sPoly, b.2)) s = .ok ((), st') := by
  unfold commitPermutedW
  constructor
  · intro h
    obtain ⟨⟨p', c'⟩, s0, h1, h⟩ := bind_ok h
    have h1' : Verif.Plonk.commitPermuted threads d bf theta rng.permuted P.vctx P.vf v P.cf c l ctx
        = some (p', c') ∧ s0 = st := by
      cases hc : Verif.Plonk.commitPermuted threads d bf theta rng.permuted P.vctx P.vf v P.cf c l ctx
        with
      | none => rw [hc] at h1; cases h1
      | some x => rw [hc] at h1; cases h1; exact ⟨rfl, rfl⟩
    obtain ⟨h1', hs0⟩ := h1'
    rw [hs0] at h
    dsimp only at h
    obtain ⟨a, h3, h'⟩ := panics_bind_ok h
    obtain ⟨s, h4, h''⟩ := panics_bind_ok h'
    obtain ⟨_, s1, h5, h3'⟩ := bind_ok h''
    obtain ⟨_, s2, h6, h4'⟩ := bind_ok h3'
    obtain ⟨⟨⟨hp, hb⟩, hc⟩, hs'⟩ : (((_ = p) ∧ _ = b) ∧ (_ = ctx')) ∧ _ = st' := by
      simpa [pure, StateT.pure, Except.pure] using h4'
    subst hp hb hc hs'
    obtain ⟨i1, i2⟩ := commitPermuted_inv h1'
    rw [(lag_commit hs ht i1 _).1] at h3
    rw [(lag_commit hs ht i2 _).1] at h4
    cases h3
    cases h4
    exact ⟨h1', rfl, s1, h5, h6⟩
  · rintro ⟨h1, rfl, s, h2, h3⟩
    obtain ⟨i1, i2⟩ := commitPermuted_inv h1
    rw [h1]
    refine ok_bind (a := (p, ctx')) (s1 := st) rfl ?_
    refine ok_bind (ok_panics (lag_commit hs ht i1 _).1 st) ?_
    refine ok_bind (ok_panics (lag_commit hs ht i2 _).1 st) ?_
    exact ok_bind h2 (ok_bind h3 rfl)

theorem permuted_inv {bf : ℕ} {theta : F}
    {rng : ℕ → ℕ → F} {vctx : List (List F)} {vf : List ℕ} {v : Leaves} {cf : List ℕ} {c : Leaves}
    {l : Lookup F} {ctx ctx' : List (List F)} {p : Permuted F}
    (h : Verif.Plonk.commitPermuted threads d bf theta rng vctx vf v cf c l ctx = some (p, ctx')) :
    Verif.LookupPerm.permuteExpressionPair d.n bf (rng ctx.length)
      (fun i => rng ctx.length (bf + 1 + i)) p.input p.table = .ok (p.a, p.s) ∧
      ctx'.length = ctx.length + 2 := by
  unfold Verif.Plonk.commitPermuted at h
  obtain ⟨_, -, h⟩ := Option.bind_eq_some_iff.1 h
  obtain ⟨_, -, h⟩ := Option.bind_eq_some_iff.1 h
  obtain ⟨_, -, h⟩ := Option.bind_eq_some_iff.1 h
  obtain ⟨_, -, h⟩ := Option.bind_eq_some_iff.1 h
  obtain ⟨_, -, h⟩ := Option.bind_eq_some_iff.1 h
  obtain ⟨_, -, h⟩ := Option.bind_eq_some_iff.1 h
  obtain ⟨⟨a, s⟩, h1, h⟩ := Option.bind_eq_some_iff.1 h
  obtain ⟨_, -, h⟩ := Option.bind_eq_some_iff.1 h
  obtain ⟨_, -, h⟩ := Option.bind_eq_some_iff.1 h
  obtain ⟨_, -, h⟩ := Option.bind_eq_some_iff.1 h
  obtain ⟨⟨_, _⟩, h2, h⟩ := Option.bind_eq_some_iff.1 h
  obtain ⟨_, -, h⟩ := Option.bind_eq_some_iff.1 h
  obtain ⟨⟨_, _⟩, h3, h⟩ := Option.map_eq_some_iff.1 h
  cases h2
  cases h3
  cases h
  refine ⟨?_, by simp⟩
  dsimp only
  cases hq : Verif.LookupPerm.permuteExpressionPair d.n bf (rng ctx.length)
      (fun i => rng ctx.length (bf + 1 + i)) _ _ with
  | error x => rw [hq] at h1; cases h1
  | ok x => rw [hq] at h1; cases h1; rfl

theorem permuted_congr {bf : ℕ} {theta : F}
    {rng rng' : ℕ → ℕ → F} {vctx : List (List F)} {vf : List ℕ} {v : Leaves} {cf : List ℕ}
    {c : Leaves} {l : Lookup F} {ctx : List (List F)} (h : rng ctx.length = rng' ctx.length) :
    Verif.Plonk.commitPermuted threads d bf theta rng vctx vf v cf c l ctx
      = Verif.Plonk.commitPermuted threads d bf theta rng' vctx vf v cf c l ctx := by
  unfold Verif.Plonk.commitPermuted
  rw [h]

theorem permuted_steers (hs : Setup threads pr d) (ht : threads ≠ 0)
    (hw : ∀ a : A, ∃ r : F, r • pr.w = a) {e : Enc F K A} {S : Finset F} {cs : Cs F}
    (hS : S.card ≤ cs.blindingFactors + 1) (hx : ∀ s ∈ S, s ^ d.n ≠ 1) {theta : F}
    {rng₁ rng₀ : Rng F} {P₁ P₂ : Prep F} {v₁ c₁ v c : Leaves} {l₁ l : Lookup F}
    {fv : List (List F)} {w : Circuit F}
    (hspec : ∀ (rng : ℕ → ℕ → F) ctx, (∀ c ∈ ctx, Good d c) → ∃ p ctx',
      Verif.Plonk.commitPermuted threads d cs.blindingFactors theta rng P₂.vctx P₂.vf v P₂.cf c l ctx
        = some (p, ctx') ∧ (∀ c ∈ ctx', Good d c) ∧ ctx <+: ctx' ∧
      PermutedOk d cs theta P₂.cf c fv w l p ctx')
    {ctx₁ ctx₂ ctx₁' : List (List F)} {st st' : WState F} {y₁ : Permuted F × F × F}
    (hlen : ctx₁.length = ctx₂.length) (hg : ∀ c ∈ ctx₂, Good d c)
    (h : commitPermutedW threads e pr d cs.blindingFactors theta rng₁ P₁ v₁ c₁ l₁ ctx₁ st
      = .ok ((y₁, ctx₁'), st')) :
    Steers d (fun r : ℕ → (ℕ → F) × F × F => commitPermutedW threads e pr d cs.blindingFactors theta
        { rng₀ with permuted := fun i => (r i).1, permutedBlind := fun i => (r i).2 } P₂ v c l) ctx₂
      st st' ctx₁'.length (fun y₂ => Alike pr S (y₁.1.aPoly, y₁.2.1) (y₂.1.aPoly, y₂.2.1) ∧
        Alike pr S (y₁.1.sPoly, y₁.2.2) (y₂.1.sPoly, y₂.2.2) ∧
        ∃ ctx, PermutedOk d cs theta P₂.cf c fv w l y₂.1 ctx) := by
  obtain ⟨p₁, b₁⟩ := y₁
  obtain ⟨h1, -, s, h2, h3⟩ := (permutedW_iff hs ht).1 h
  obtain ⟨i1, i2⟩ := commitPermuted_inv h1
  obtain ⟨la, -, -⟩ := rows_of_lag hs ht i1
  obtain ⟨ls, -, -⟩ := rows_of_lag hs ht i2
  obtain ⟨p0, c0, z1, -, -, z4⟩ := hspec (fun _ _ => 0) ctx₂ hg
  obtain ⟨z5, -⟩ := permuted_inv z1
  obtain ⟨ba, bs, hba, hbs, hbase⟩ := permute_base z5
  obtain ⟨rA, hA⟩ := blind_free hs.domain ba (cs.blindingFactors + 1) hba S hS hx
    (fun s => evalPolynomial p₁.aPoly s)
  obtain ⟨rS, hSS⟩ := blind_free hs.domain bs (cs.blindingFactors + 1) hbs S hS hx
    (fun s => evalPolynomial p₁.sPoly s)
  obtain ⟨R, hR⟩ : ∃ R : ℕ → F, R = fun i => if i < cs.blindingFactors + 1 then rA i
    else rS (i - (cs.blindingFactors + 1)) := ⟨_, rfl⟩
  obtain ⟨p₂, ctx₂', q1, q2, q3, q4⟩ := hspec (fun _ => R) ctx₂ hg
  obtain ⟨q5, q6⟩ := permuted_inv q1
  rw [q4.input, q4.table, ← z4.input, ← z4.table, hbase] at q5
  obtain ⟨qa, qs⟩ := Prod.mk.inj (Except.ok.inj q5)
  have ma : (List.range (cs.blindingFactors + 1)).map R
      = (List.range (cs.blindingFactors + 1)).map rA :=
    List.map_congr_left fun i hi => by rw [hR]; exact if_pos (List.mem_range.1 hi)
  have ms : (List.range (cs.blindingFactors + 1)).map (fun i => R (cs.blindingFactors + 1 + i))
      = (List.range (cs.blindingFactors + 1)).map rS :=
    List.map_congr_left fun i hi => by
      rw [hR]; dsimp only; rw [if_neg (by omega), Nat.add_sub_cancel_left]
  rw [ma] at qa
  rw [ms] at qs
  obtain ⟨bA, hbA⟩ := blind_exists hw p₂.aPoly (commitOf pr (p₁.aPoly, b₁.1))
  obtain ⟨bS, hbS⟩ := blind_exists hw p₂.sPoly (commitOf pr (p₁.sPoly, b₁.2))
  obtain ⟨-, e1⟩ := permuted_inv h1
  refine ⟨fun _ => (R, bA, bS), (p₂, bA, bS), ctx₂', q2, by omega, by omega,
    ⟨⟨by rw [hs.n_eq]; exact la, by rw [hs.n_eq]; exact q4.aLen, hbA,
      hA _ q4.aLen (by rw [q4.aRows, qa])⟩,
    ⟨by rw [hs.n_eq]; exact ls, by rw [hs.n_eq]; exact q4.sLen, hbS,
      hSS _ q4.sLen (by rw [q4.sRows, qs])⟩, ctx₂', q4⟩, fun r hr => ?_⟩
  have hrL := hr _ le_rfl (by omega)
  refine (permutedW_iff hs ht).2 ⟨?_, ?_, s, ?_, ?_⟩
  · rw [← q1]
    refine permuted_congr ?_
    show (r ctx₂.length).1 = R
    rw [hrL]
  · show _ = (r ctx₂.length).2
    rw [hrL]
  · rw [hbA]; exact h2
  · rw [hbS]; exact h3

/-! ### Lookup products -/

theorem product_steers (hs : Setup threads pr d) (ht : threads ≠ 0)
    (hw : ∀ a : A, ∃ r : F, r • pr.w = a) {e : Enc F K A} {S : Finset F} {bf : ℕ}
    (hS : S.card ≤ bf) (hx : ∀ s ∈ S, s ^ d.n ≠ 1) {beta gamma : F}
    {rng₁ rng₀ : Rng F} {p₁ p₂ : Permuted F × F × F}
    (hspec : ∃ z, Verif.Lookup.commitProduct threads d.n bf beta gamma (fun _ => 0) p₂.1.input
      p₂.1.table p₂.1.a p₂.1.s = some z)
    {ctx₁ ctx₂ ctx₁' : List (List F)} {st st' : WState F} {y₁ : Product F × F}
    (hlen : ctx₁.length = ctx₂.length) (hg : ∀ c ∈ ctx₂, Good d c)
    (h : commitProductW threads e pr d bf beta gamma rng₁ p₁ ctx₁ st = .ok ((y₁, ctx₁'), st')) :
    Steers d (fun r : ℕ → (ℕ → F) × F => commitProductW threads e pr d bf beta gamma
        { rng₀ with lookup := fun i => (r i).1, productBlind := fun i => (r i).2 } p₂) ctx₂
      st st' ctx₁'.length (fun y₂ => Alike pr S (y₁.1.poly, y₁.2) (y₂.1.poly, y₂.2)) := by
  unfold commitProductW at h
  obtain ⟨z₁, -, h⟩ := panics_bind_ok h
  have hlen1 : ctx₁'.length = ctx₁.length + 1 := by
    obtain ⟨p, b⟩ := y₁
    exact rows_length' ((rowsW_iff hs ht).1 h).1
  obtain ⟨z, hz⟩ := hspec
  obtain ⟨b, hb, hbase⟩ := product_base hz
  obtain ⟨R, hR⟩ := blind_free hs.domain b bf hb S hS hx
    (fun s => evalPolynomial (coeffs threads d z₁) s)
  have hz₁ : z₁.length = d.n := by
    obtain ⟨p, b⟩ := y₁
    exact (rows_of_lag hs ht (commitRows_inv ((rowsW_iff hs ht).1 h).1)).2.1
  obtain ⟨r₀, y₂, ctx₂', g1, g2, g3, g4, g5⟩ := rows_steers (rng₀ := rng₀) (S := S)
    (z₂ := b ++ (List.range bf).map R) hs ht hw
    (by simp [hb]) (by
      intro p₁ p₂ l1 l2 r1 r2 s hs'
      rw [hR p₂ l2 r2 s hs']
      exact rows_eval hs.domain (coeffs_spec hs ht z₁ hz₁).2 l1
        ((coeffs_rows hs ht z₁ hz₁).trans r1.symm) s) hlen hg h
  refine ⟨fun i => (R, r₀ i), y₂, ctx₂', g1, g2, g3, g4, fun r hr => ?_⟩
  refine ok_bind (ok_panics ?_ _) (g5 (fun i => (r i).2) fun i hi hi' => by rw [hr i hi hi'])
  show Verif.Lookup.commitProduct threads d.n bf beta gamma (r ctx₂.length).1 p₂.1.input
      p₂.1.table p₂.1.a p₂.1.s = _
  rw [hr _ le_rfl (by omega), hbase]

/-! ### Permutation products -/

theorem permutation_steers (hs : Setup threads pr d) (ht : threads ≠ 0)
    (hw : ∀ a : A, ∃ r : F, r • pr.w = a) {e : Enc F K A} {S : Finset F} {cs : Cs F}
    (hS : S.card ≤ cs.blindingFactors) (hx : ∀ s ∈ S, s ^ d.n ≠ 1) {delta beta gamma : F}
    {rng₁ rng₀ : Rng F} {pk : Pk F} (hpl : pk.permutations.length = cs.permutation.length)
    {w₁ w₂ : Circuit F} (hall : cs.permutation.all (Verif.Plonk.colOk cs) = true)
    (hspec : ∃ zs, Verif.Permutation.commit threads d.omega delta beta gamma d.n cs.blindingFactors
      cs.degree (fun _ _ => 0) (colValues pk.fixedValues w₂) cs.permutation pk.permutations
        = some zs ∧ ∀ z ∈ zs, z.length = d.n)
    {ctx₁ ctx₂ ctx₁' : List (List F)} {st st' : WState F} {y₁ : List (Product F × F)}
    (hlen : ctx₁.length = ctx₂.length) (hg : ∀ c ∈ ctx₂, Good d c)
    (h : commitPermutationW threads e pr d cs delta beta gamma rng₁ pk w₁ ctx₁ st
      = .ok ((y₁, ctx₁'), st')) :
    Steers d (fun r : ℕ → (ℕ → ℕ → F) × F => commitPermutationW threads e pr d cs delta beta gamma
        { rng₀ with permutation := fun i => (r i).1, productBlind := fun i => (r i).2 } pk w₂) ctx₂
      st st' ctx₁'.length (fun y₂ => List.Forall₂ (fun y₁ y₂ =>
        Alike pr S (y₁.1.poly, y₁.2) (y₂.1.poly, y₂.2)) y₁ y₂) := by
  unfold commitPermutationW at h
  obtain ⟨zs₁, hz1, h⟩ := panics_bind_ok h
  rw [if_pos hall] at hz1
  obtain ⟨zs, hz, hzn⟩ := hspec
  have hl1 := commit_length hpl hz1
  have hl2 := commit_length hpl hz
  obtain ⟨bs, hb, hbase⟩ := commit_base hz hzn
  have hbl : bs.length = zs.length := by
    have := hbase fun _ _ => 0
    rw [hz] at this
    rw [Option.some.inj this]; simp
  have hch : ∀ k, ∃ R : ℕ → F, ∀ (hk : k < bs.length) (p : List F), p.length = d.n →
      rows d p = bs[k] ++ (List.range cs.blindingFactors).map R →
      ∀ s ∈ S, evalPolynomial p s = evalPolynomial (coeffs threads d (zs₁.getD k [])) s := by
    intro k
    by_cases hk : k < bs.length
    · obtain ⟨R, hR⟩ := blind_free hs.domain bs[k] cs.blindingFactors (hb _ (List.getElem_mem _)) S hS
        hx (fun s => evalPolynomial (coeffs threads d (zs₁.getD k [])) s)
      exact ⟨R, fun _ => hR⟩
    · exact ⟨fun _ => 0, fun hk' => absurd hk' hk⟩
  choose R hR using hch
  have hpre : List.Forall₂ (fun z₁ z₂ : List F => z₂.length = d.n ∧ ∀ p₁ p₂ : List F,
      z₁.length = d.n → p₁.length = d.n →
      p₂.length = d.n → rows d p₁ = z₁ → rows d p₂ = z₂ →
      ∀ s ∈ S, evalPolynomial p₂ s = evalPolynomial p₁ s) zs₁
      (bs.mapIdx fun k b => b ++ (List.range cs.blindingFactors).map (R k)) := by
    rw [List.forall₂_iff_get]
    refine ⟨by simp [hbl, hl1, hl2], fun i h1 h2 => ?_⟩
    simp only [List.length_mapIdx] at h2
    simp only [List.get_eq_getElem, List.getElem_mapIdx]
    refine ⟨by simp [hb _ (List.getElem_mem h2)], fun p₁ p₂ l0 l1 l2 r1 r2 s hs' => ?_⟩
    rw [hR i h2 p₂ l2 r2 s hs', List.getD_eq_getElem _ _ h1]
    exact rows_eval hs.domain (coeffs_spec hs ht zs₁[i] l0).2 l1
      ((coeffs_rows hs ht zs₁[i] l0).trans r1.symm) s
  obtain ⟨r₀, y₂, ctx₂', g1, g2, g3, g4, g5⟩ := mapSW_steers (d := d)
    (f₂ := fun r : ℕ → F => commitRowsW threads e pr d { rng₀ with productBlind := r })
    (R := fun y₁ y₂ => Alike pr S (y₁.1.poly, y₁.2) (y₂.1.poly, y₂.2))
    (by
      rintro z₁ z₂ ⟨l2, hev⟩ c₁ c₂ s s' y c₁' hl' hg' hrun
      have l1 : z₁.length = d.n := by
        obtain ⟨p, b⟩ := y
        exact (rows_of_lag hs ht (commitRows_inv ((rowsW_iff hs ht).1 hrun).1)).2.1
      exact rows_steers hs ht hw l2 (fun p₁ p₂ => hev p₁ p₂ l1) hl' hg' hrun) hpre hlen hg h
  refine ⟨fun i => (R, r₀ i), y₂, ctx₂', g1, g2, g3, g4, fun r hr => ?_⟩
  refine ok_bind (ok_panics ?_ _) (g5 (fun i => (r i).2) fun i hi hi' => by rw [hr i hi hi'])
  rw [if_pos hall]
  show Verif.Permutation.commit threads d.omega delta beta gamma d.n cs.blindingFactors
      cs.degree (r ctx₂.length).1 (colValues pk.fixedValues w₂) cs.permutation pk.permutations = _
  rw [hbase]
  by_cases hlt : ctx₂.length < ctx₁'.length
  · rw [hr _ le_rfl hlt]
  · have h0 : bs = [] := by
      have := rowsW_lengths hs ht h
      exact List.eq_nil_of_length_eq_zero (by omega)
    rw [h0]; rfl

end Verif.Hiding
