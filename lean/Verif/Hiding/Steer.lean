import Verif.Hiding.Column
import Verif.Hiding.Multiopen
import Verif.Protocol.Props

/-!
# Steering the blinding rows of the prover (C77)

Given one run of the prover, the random values of another run, on other witnesses, are chosen so
that it writes the same bytes.
-/

namespace Verif.Hiding

open Verif.Cs (Cs Column Lookup)
open Verif.Domain (Domain)
open Verif.PolyArith (evalPolynomial)
open Verif.Plonk (Pk Circuit Leaves Permuted Product Challenges CircuitProof CircuitEvals mapS
  register rows Good VGood At ev PermutedOk permsOf colValues Sat Nonzero Ready cols)
open Verif.Msm Verif.Transcript Verif.Multicore
open Verif.Multiopen (Query Commitment commitOf)
open Verif.Ipa (ParamsOk)
open Verif.Protocol

/-! ### The last rows of the columns are the random values drawn -/

section Bases

variable {F : Type*} [Field F]

theorem permute_base [LinearOrder F] {n bf : ℕ} {rI rT : ℕ → F} {input table a s : List F}
    (h : Verif.LookupPerm.permuteExpressionPair n bf rI rT input table = .ok (a, s)) :
    ∃ ba bs : List F, ba.length + (bf + 1) = n ∧ bs.length + (bf + 1) = n ∧ ∀ rI' rT',
      Verif.LookupPerm.permuteExpressionPair n bf rI' rT' input table
        = .ok (ba ++ (List.range (bf + 1)).map rI', bs ++ (List.range (bf + 1)).map rT') := by
  unfold Verif.LookupPerm.permuteExpressionPair at h ⊢
  split_ifs at h with hn
  simp only [if_neg hn]
  dsimp only at h
  cases hm : Verif.LookupPerm.countTable (table.take (n - (bf + 1))) [] with
  | none => rw [hm] at h; cases h
  | some m =>
    rw [hm] at h
    dsimp only at h ⊢
    cases hp : Verif.LookupPerm.pass none 0
        ((input.take (n - (bf + 1))).insertionSort (· ≤ ·)) m with
    | error e => rw [hp] at h; cases h
    | ok r =>
      obtain ⟨t, rws, m'⟩ := r
      rw [hp] at h
      simp only [Except.bind] at h ⊢
      cases hf : Verif.LookupPerm.fill (m'.flatMap fun (a, c) => List.replicate c a) rws
          (t ++ List.replicate (n - (bf + 1) - t.length) 0) with
      | error e => rw [hf] at h; cases h
      | ok t' =>
        rw [hf] at h
        dsimp only at h ⊢
        split_ifs at h with hl
        rw [not_or, not_not, not_not] at hl
        simp only [List.length_append, List.length_map, List.length_range] at hl
        refine ⟨_, _, hl.1, hl.2, fun rI' rT' => ?_⟩
        rw [if_neg]
        rw [not_or, not_not, not_not]
        simp only [List.length_append, List.length_map, List.length_range]
        exact hl

theorem product_base {threads n bf : ℕ} {beta gamma : F} {rand : ℕ → F}
    {inputs tables pinputs ptables z : List F}
    (h : Verif.Lookup.commitProduct threads n bf beta gamma rand inputs tables pinputs ptables
      = some z) :
    ∃ b : List F, b.length + bf = n ∧ ∀ rand', Verif.Lookup.commitProduct threads n bf beta gamma
      rand' inputs tables pinputs ptables = some (b ++ (List.range bf).map rand') := by
  unfold Verif.Lookup.commitProduct at h ⊢
  obtain ⟨prod, h1, h⟩ := Option.bind_eq_some_iff.1 h
  obtain ⟨prod', h2, h⟩ := Option.bind_eq_some_iff.1 h
  split_ifs at h with hn
  dsimp only at h
  split_ifs at h with hl
  simp only [List.length_append, List.length_map, List.length_range] at hl
  refine ⟨_, hl, fun rand' => ?_⟩
  rw [h1, Option.bind_some, h2, Option.bind_some, if_neg hn, if_pos (by
    simp only [List.length_append, List.length_map, List.length_range]; exact hl)]

theorem sets_base {Col : Type*} {threads : ℕ} {omega delta beta gamma : F} {n bf : ℕ}
    {rand : ℕ → ℕ → F} {val : Col → List F} (l : List (List Col × List (List F))) :
    ∀ {i : ℕ} {dw lastZ : F} {zs : List (List F)},
    Verif.Permutation.commitSets threads omega delta beta gamma n bf rand val i l dw lastZ = some zs →
    (∀ z ∈ zs, z.length = n) →
    ∃ bs : List (List F), (∀ b ∈ bs, b.length + bf = n) ∧ ∀ rand',
      Verif.Permutation.commitSets threads omega delta beta gamma n bf rand' val i l dw lastZ
        = some (bs.mapIdx fun k b => b ++ (List.range bf).map (rand' (i + k))) := by
  induction l with
  | nil => intros; exact ⟨[], by simp, fun _ => rfl⟩
  | cons a l ih =>
    intro i dw lastZ zs h hz
    obtain ⟨cs, ps⟩ := a
    unfold Verif.Permutation.commitSets at h
    obtain ⟨⟨z, dw', lastZ'⟩, h1, h⟩ := Option.bind_eq_some_iff.1 h
    obtain ⟨zs', h2, rfl⟩ := Option.map_eq_some_iff.1 h
    unfold Verif.Permutation.commitSet at h1
    obtain ⟨mods, h3, h1⟩ := Option.bind_eq_some_iff.1 h1
    obtain ⟨⟨mods', dw''⟩, h4, h1⟩ := Option.bind_eq_some_iff.1 h1
    dsimp only at h1
    split_ifs at h1 with hn
    obtain ⟨rfl, h1'⟩ := Prod.mk.inj (Option.some.inj h1)
    obtain ⟨rfl, rfl⟩ := Prod.mk.inj h1'
    set B := (Verif.Permutation.running lastZ (mods'.take (n - 1))).take (n - bf) with hB
    have hBl : B.length + bf = n := by
      have := hz _ (List.mem_cons_self ..)
      simpa using this
    have hlast : ∀ r : List F, (B ++ r).getD (n - (bf + 1)) 0 = B.getD (n - (bf + 1)) 0 := by
      intro r
      simp only [List.getD_eq_getElem?_getD]
      rw [List.getElem?_append_left (by omega)]
    rw [hlast] at h2
    obtain ⟨bs, b1, b2⟩ := ih h2 fun z hz' => hz z (by simp [hz'])
    refine ⟨B :: bs, ?_, fun rand' => ?_⟩
    · intro b hb
      rcases List.mem_cons.1 hb with rfl | hb
      · exact hBl
      · exact b1 b hb
    · unfold Verif.Permutation.commitSets Verif.Permutation.commitSet
      rw [h3, Option.bind_some, h4, Option.bind_some]
      dsimp only
      rw [if_neg hn, Option.bind_some, ← hB]
      dsimp only
      rw [hlast, b2 rand', Option.map_some, List.mapIdx_cons]
      simp only [Nat.add_zero, Option.some.injEq, List.cons.injEq, true_and]
      congr 1
      funext k b
      rw [show i + 1 + k = i + (k + 1) by omega]

theorem commit_base {Col : Type*} {threads : ℕ} {omega delta beta gamma : F} {n bf D : ℕ}
    {rand : ℕ → ℕ → F} {val : Col → List F} {columns : List Col} {perms zs : List (List F)}
    (h : Verif.Permutation.commit threads omega delta beta gamma n bf D rand val columns perms
      = some zs) (hz : ∀ z ∈ zs, z.length = n) :
    ∃ bs : List (List F), (∀ b ∈ bs, b.length + bf = n) ∧ ∀ rand',
      Verif.Permutation.commit threads omega delta beta gamma n bf D rand' val columns perms
        = some (bs.mapIdx fun k b => b ++ (List.range bf).map (rand' k)) := by
  unfold Verif.Permutation.commit at h
  split_ifs at h with hD
  obtain ⟨bs, b1, b2⟩ := sets_base _ h hz
  refine ⟨bs, b1, fun rand' => ?_⟩
  unfold Verif.Permutation.commit
  rw [if_neg hD, b2 rand']
  simp only [Nat.zero_add]

end Bases

/-! ### Steering -/

section Framework

variable {F : Type} [Field F] {d : Domain F}

/-- A stage of the prover, as a function of the random values it draws at the numbers of
registered polynomials, can be brought to end in the state `st'` with `len` polynomials
registered and a result satisfying `Q`, by fixing the values drawn within the stage. -/
def Steers {ρ β : Type} (d : Domain F) (w : (ℕ → ρ) → List (List F) → W F (β × List (List F)))
    (ctx : List (List F)) (st st' : WState F) (len : ℕ) (Q : β → Prop) : Prop :=
  ∃ (r₀ : ℕ → ρ) (y : β) (ctx' : List (List F)), (∀ c ∈ ctx', Good d c) ∧ ctx.length ≤ len ∧
    ctx'.length = len ∧ Q y ∧
    ∀ r : ℕ → ρ, (∀ i, ctx.length ≤ i → i < len → r i = r₀ i) → w r ctx st = .ok ((y, ctx'), st')

theorem mapSW_steers {ρ α₁ α₂ β₁ β₂ : Type} [Nonempty ρ]
    {f₁ : α₁ → List (List F) → W F (β₁ × List (List F))}
    {f₂ : (ℕ → ρ) → α₂ → List (List F) → W F (β₂ × List (List F))} {Pre : α₁ → α₂ → Prop}
    {R : β₁ → β₂ → Prop}
    (step : ∀ a₁ a₂, Pre a₁ a₂ → ∀ ctx₁ ctx₂ st st' y₁ ctx₁', ctx₁.length = ctx₂.length →
      (∀ c ∈ ctx₂, Good d c) → f₁ a₁ ctx₁ st = .ok ((y₁, ctx₁'), st') →
      Steers d (fun r => f₂ r a₂) ctx₂ st st' ctx₁'.length (R y₁))
    {l₁ : List α₁} {l₂ : List α₂} (hl : List.Forall₂ Pre l₁ l₂) :
    ∀ {ctx₁ ctx₂ : List (List F)} {st st' : WState F} {ys₁ : List β₁} {ctx₁' : List (List F)},
      ctx₁.length = ctx₂.length → (∀ c ∈ ctx₂, Good d c) →
      mapSW f₁ l₁ ctx₁ st = .ok ((ys₁, ctx₁'), st') →
      Steers d (fun r => mapSW (f₂ r) l₂) ctx₂ st st' ctx₁'.length
        (fun ys₂ => List.Forall₂ R ys₁ ys₂) := by
  induction hl with
  | nil =>
    intro ctx₁ ctx₂ st st' ys₁ ctx₁' hlen hg h
    cases h
    exact ⟨fun _ => Classical.arbitrary ρ, [], ctx₂, hg, hlen.ge, hlen.symm, .nil, fun _ _ => rfl⟩
  | cons ha hl ih =>
    intro ctx₁ ctx₂ st st' ys₁ ctx₁' hlen hg h
    unfold mapSW at h
    obtain ⟨⟨y₁, c₁⟩, s₁, h1, h⟩ := bind_ok h
    obtain ⟨⟨ys, c₁'⟩, s₂, h2, h⟩ := bind_ok h
    obtain ⟨⟨hy, hc⟩, hs⟩ : ((_ = ys₁) ∧ (_ = ctx₁')) ∧ _ = st' := by simpa [pure, StateT.pure, Except.pure] using h
    subst hy hc hs
    obtain ⟨r₁, y₂, c₂, g1, e1, e2, q1, k1⟩ := step _ _ ha _ _ _ _ _ _ hlen hg h1
    obtain ⟨r₂, ys₂, c₂', g2, e3, e4, q2, k2⟩ := ih e2.symm g1 h2
    refine ⟨fun i => if i < c₂.length then r₁ i else r₂ i, y₂ :: ys₂, c₂', g2, by omega, e4,
      .cons q1 q2, fun r hr => ?_⟩
    show mapSW (f₂ r) (_ :: _) ctx₂ st = _
    unfold mapSW
    refine ok_bind (k1 r fun i hi hi' => ?_) (ok_bind (k2 r fun i hi hi' => ?_) rfl)
    · exact (hr i hi (by omega)).trans (if_pos (by omega))
    · exact (hr i (by omega) (by omega)).trans (if_neg (by omega))

end Framework

/-! ### Columns -/

section Columns

variable {F K A : Type} [Field F] [LinearOrder F] [AddCommGroup A] [Module F A] [Field K]
  {threads : ℕ} {pr : Params A} {d : Domain F}

/-- Two polynomials with blinding factors that no one can tell apart: of the same length, with the
same commitment and the same values at the points of `S`. -/
structure Alike (pr : Params A) (S : Finset F) (q₁ q₂ : List F × F) : Prop where
  len₁ : q₁.1.length = pr.n
  len₂ : q₂.1.length = pr.n
  comm : commitOf pr q₂ = commitOf pr q₁
  evals : ∀ s ∈ S, evalPolynomial q₂.1 s = evalPolynomial q₁.1 s

omit [LinearOrder F] in
theorem blind_exists (hw : ∀ a : A, ∃ r : F, r • pr.w = a) (p : List F) (c : A) :
    ∃ b : F, commitOf pr (p, b) = c := by
  obtain ⟨b, hb⟩ := hw (c - commitOf pr (p, (0 : F)))
  refine ⟨b, ?_⟩
  have h : commitOf pr (p, b) = commitOf pr (p, (0 : F)) + b • pr.w := by
    simp [commitOf]
  rw [h, hb]; abel

omit [LinearOrder F] in
theorem coeffs_rows (hs : Setup threads pr d) (ht : threads ≠ 0) (v : List F)
    (hv : v.length = d.n) : rows d (coeffs threads d v) = v := by
  obtain ⟨p, h1, h2, h3⟩ := Verif.Plonk.toCoeffs_spec hs.domain threads ht v hv
  unfold coeffs
  rw [h1]; exact h3

omit [LinearOrder F] in
theorem rowsW_iff (hs : Setup threads pr d) (ht : threads ≠ 0) {e : Enc F K A} {rng : Rng F}
    {z : List F} {ctx ctx' : List (List F)} {p : Product F} {b : F} {st st' : WState F} :
    commitRowsW threads e pr d rng z ctx st = .ok (((p, b), ctx'), st') ↔
      Verif.Plonk.commitRows threads d z ctx = some (p, ctx') ∧ b = rng.productBlind ctx.length ∧
      W.writePoint e (commitOf pr (p.poly, b)) st = .ok ((), st') := by
  unfold commitRowsW
  constructor
  · intro h
    obtain ⟨⟨p', c'⟩, h1, h⟩ := panics_bind_ok h
    dsimp only at h
    obtain ⟨h2, -⟩ := lag_commit hs ht (commitRows_inv h1) (rng.productBlind ctx.length)
    obtain ⟨c, h3, h⟩ := panics_bind_ok h
    obtain ⟨_, s, h4, h⟩ := bind_ok h
    obtain ⟨⟨⟨hp, hb⟩, hc⟩, hs⟩ : (((_ = p) ∧ _ = b) ∧ (_ = ctx')) ∧ _ = st' := by
      simpa [pure, StateT.pure, Except.pure] using h
    subst hp hb hc hs
    rw [h2] at h3
    cases h3
    exact ⟨h1, rfl, h4⟩
  · rintro ⟨h1, rfl, h2⟩
    obtain ⟨h3, -⟩ := lag_commit hs ht (commitRows_inv h1) (rng.productBlind ctx.length)
    refine ok_bind (ok_panics h1 st) ?_
    exact ok_bind (ok_panics h3 st) (ok_bind h2 rfl)

omit [LinearOrder F] in
theorem rows_length' {z : List F} {ctx ctx' : List (List F)} {p : Product F}
    (h : Verif.Plonk.commitRows threads d z ctx = some (p, ctx')) :
    ctx'.length = ctx.length + 1 := by
  unfold Verif.Plonk.commitRows at h
  obtain ⟨_, -, h⟩ := Option.bind_eq_some_iff.1 h
  obtain ⟨_, -, h⟩ := Option.bind_eq_some_iff.1 h
  obtain ⟨⟨l, c⟩, h1, h⟩ := Option.map_eq_some_iff.1 h
  cases h
  cases h1
  simp

omit [LinearOrder F] in
theorem rows_of_lag (hs : Setup threads pr d) (ht : threads ≠ 0) {z p : List F}
    (h : d.lagrangeToCoeff threads z = some p) : p.length = d.n ∧ z.length = d.n ∧ rows d p = z := by
  have hv : z.length = d.n := by
    by_contra hne
    rw [(Verif.Domain.lagrangeToCoeff_spec hs.domain threads ht z).1.1 hne] at h
    cases h
  obtain ⟨p', h1, h2, h3⟩ := Verif.Plonk.toCoeffs_spec hs.domain threads ht z hv
  rw [h] at h1
  cases h1
  exact ⟨h2, hv, h3⟩

omit [LinearOrder F] in
theorem rows_steers (hs : Setup threads pr d) (ht : threads ≠ 0)
    (hw : ∀ a : A, ∃ r : F, r • pr.w = a) {e : Enc F K A} {S : Finset F} {rng₁ rng₀ : Rng F}
    {z₁ z₂ : List F} (hz₂ : z₂.length = d.n)
    (hS : ∀ p₁ p₂ : List F, p₁.length = d.n → p₂.length = d.n → rows d p₁ = z₁ → rows d p₂ = z₂ →
      ∀ s ∈ S, evalPolynomial p₂ s = evalPolynomial p₁ s)
    {ctx₁ ctx₂ ctx₁' : List (List F)} {st st' : WState F} {y₁ : Product F × F}
    (hlen : ctx₁.length = ctx₂.length) (hg : ∀ c ∈ ctx₂, Good d c)
    (h : commitRowsW threads e pr d rng₁ z₁ ctx₁ st = .ok ((y₁, ctx₁'), st')) :
    Steers d (fun r : ℕ → F => commitRowsW threads e pr d { rng₀ with productBlind := r } z₂) ctx₂
      st st' ctx₁'.length (fun y₂ => Alike pr S (y₁.1.poly, y₁.2) (y₂.1.poly, y₂.2)) := by
  obtain ⟨p₁, b₁⟩ := y₁
  obtain ⟨h1, h2, h3⟩ := (rowsW_iff hs ht).1 h
  obtain ⟨l1, l2, l3⟩ := rows_of_lag hs ht (commitRows_inv h1)
  obtain ⟨p₂, ctx₂', q1, q2, -, q4, q5, -⟩ := Verif.Plonk.commitRows_spec hs.domain ht z₂ hz₂ ctx₂ hg
  obtain ⟨b₂, hb₂⟩ := blind_exists hw p₂.poly (commitOf pr (p₁.poly, b₁))
  have e1 := rows_length' h1
  have e2 := rows_length' q1
  refine ⟨fun _ => b₂, (p₂, b₂), ctx₂', q2, by omega, by omega,
    ⟨by rw [hs.n_eq]; exact l1, by rw [hs.n_eq]; exact q4, hb₂, hS _ _ l1 q4 l3 q5⟩, fun r hr => ?_⟩
  refine (rowsW_iff hs ht).2 ⟨q1, (hr _ le_rfl (by omega)).symm, ?_⟩
  rw [hb₂]; exact h3

end Columns

end Verif.Hiding
