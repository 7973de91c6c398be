import Verif.Sound.Open

/-!
# C53: an accepted proof shows that the committed columns satisfy the circuit

`halo2_proofs/src/plonk/verifier.rs`, against provers who represent every point they write over
the generators of the parameters.
-/

namespace Verif.Sound

open Verif.Cs (Cs Column)
open Verif.Domain (Domain)
open Verif.Msm Verif.PolyArith Verif.Transcript Verif.Protocol Polynomial
open Verif.Plonk (CircuitProof CircuitEvals queryEvals circuitEvals Columns Products assemble Ready
  Violates circuitOf permsOf Shape Accepts Pk keygenPk rows maxWidth numExpressions)
open Verif.Multiopen (Query Commitment commitOf)
open Verif.Ipa (ParamsOk)

variable {F K A : Type} [Field F]

theorem map_of_forall₂ {α β : Type*} {f : β → α} {l : List α} {r : List β}
    (h : List.Forall₂ (fun a b => f b = a) l r) : r.map f = l := by
  induction h with
  | nil => rfl
  | cons h _ ih => rw [List.map_cons, h, ih]

/-! ## The polynomials of all rounds -/

/-- The commitments of all circuits. -/
def mkComms (inst advice products : List (List A)) (lookups : List (List (A × A × A))) :
    List (Opens A) :=
  ((inst.zip advice).zip (products.zip lookups)).map fun q =>
    { inst := q.1.1, advice := q.1.2, permutation := q.2.1, lookups := q.2.2 }

theorem mkComms_mem {inst advice products : List (List A)} {lookups : List (List (A × A × A))}
    {o : Opens A} (h : o ∈ mkComms inst advice products lookups) :
    o.inst ∈ inst ∧ o.advice ∈ advice ∧ o.permutation ∈ products ∧ o.lookups ∈ lookups := by
  obtain ⟨⟨⟨a, b⟩, c, d⟩, h', rfl⟩ := List.mem_map.1 h
  obtain ⟨h1, h2⟩ := List.of_mem_zip h'
  obtain ⟨h3, h4⟩ := List.of_mem_zip h1
  obtain ⟨h5, h6⟩ := List.of_mem_zip h2
  exact ⟨h3, h4, h5, h6⟩

theorem mkComms_opened (n : ℕ) (ρ : A → Comb F) (inst advice products : List (List A))
    (lookups : List (List (A × A × A))) :
    (mkComms inst advice products lookups).map (opened n ρ)
      = assemble ((inst.zip advice).map fun q =>
          ⟨q.2.map fun p => coeffsOf n (ρ p), q.1.map fun p => coeffsOf n (ρ p)⟩)
        (lookups.map fun l => l.map fun q => (coeffsOf n (ρ q.2.1), coeffsOf n (ρ q.2.2)))
        ((products.zip lookups).map fun q =>
          ⟨q.1.map fun p => coeffsOf n (ρ p), q.2.map fun q => coeffsOf n (ρ q.1)⟩) := by
  refine List.ext_getElem ?_ fun i h1 h2 => ?_
  · simp only [mkComms, assemble, List.length_map, List.length_zip]; omega
  · simp only [mkComms, assemble, opened, List.getElem_map, List.getElem_zip, List.zip_map',
      List.map_map]
    rfl

/-! ## Up to the challenge `gamma` and the products -/

variable [AddCommGroup A] [Module F A] [Field K] [LinearOrder K] {e : Enc F K A} {pr : Params A}
  {N : ℕ → ℕ} {S : Set (A → Comb F)}

/-- The numbers of bad challenges of the whole protocol, `k` proofs at once: `theta`, `beta`,
`gamma`, `y`, `x` and the challenges of the multipoint opening. -/
def proofBound (d : Domain F) (cs : Cs F) (k : ℕ) : ℕ → ℕ
  | 0 => maxWidth cs * (d.n - (cs.blindingFactors + 1))
  | 1 => (cs.permutation.length + 2) * (d.n - (cs.blindingFactors + 1))
  | 2 => (2 * cs.permutation.length + 2) * (d.n - (cs.blindingFactors + 1))
  | 3 => k * numExpressions cs - 1
  | 4 => d.n * (d.quotientPolyDegree + 1) - 1
  | j + 5 => multiBound d.n (queryCount cs k) j

/-- What is known after the products are read. -/
structure AfterProducts [DecidableEq F] (threads : ℕ) (d : Domain F) (cs : Cs F) (delta : F) (pk : Pk F)
    (inst advice : List (List A)) (S : Set (A → Comb F)) (theta beta gamma : F)
    (products : List (List A)) (lookups : List (List (A × A × A))) : Prop where
  len₁ : products.length = inst.length
  len₂ : lookups.length = inst.length
  sets : ∀ p ∈ products, p.length = Verif.Permutation.numSets cs.degree cs.permutation
  lks : ∀ l ∈ lookups, l.length = cs.lookups.length
  settled₁ : ∀ p ∈ products, ∀ q ∈ p, Settled S fun rep => rep q
  settled₂ : ∀ l ∈ lookups, ∀ q ∈ l, (Settled S fun rep => rep q.1) ∧
    (Settled S fun rep => rep q.2.1) ∧ Settled S fun rep => rep q.2.2
  next : ∀ ρ ∈ S, ∃ Y : Finset F, Y.card ≤ inst.length * numExpressions cs - 1 ∧ ∀ y ∉ Y,
    ∀ pieces : List (List F), pieces.length = d.quotientPolyDegree →
    (∀ q ∈ pieces, q.length = d.n) →
    ∃ Xs : Finset F, Xs.card < d.n * (d.quotientPolyDegree + 1) ∧ ∀ x ∉ Xs,
      ¬ Accepts threads d cs delta ⟨theta, beta, gamma, y⟩ pk
        ((mkComms inst advice products lookups).map (opened d.n ρ)) pieces x

theorem Logs.verifierProducts {cs : Cs F} {k : ℕ} :
    Logs (Comb F) e (Verif.Protocol.verifierProducts e cs k) := by
  unfold Verif.Protocol.verifierProducts
  logs

theorem Logs.verifierQuotient {d : Domain F} :
    Logs (Comb F) e (Verif.Protocol.verifierQuotient e d) := by
  unfold Verif.Protocol.verifierQuotient
  logs

macro_rules | `(tactic| logs_ext) => `(tactic| exact Logs.verifierProducts)
macro_rules | `(tactic| logs_ext) => `(tactic| exact Logs.verifierQuotient)

theorem products_doomed [DecidableEq F] {threads : ℕ} {d : Domain F} {cs : Cs F} {delta : F} {pk : Pk F}
    {inst advice : List (List A)} (hlen : advice.length = inst.length)
    (hinst : ∀ l ∈ inst, l.length = cs.numInstance) (hadv : ∀ l ∈ advice, l.length = cs.numAdvice)
    {columns : List (Columns F)} (hne : S.Nonempty)
    (hcol : ∀ ρ ∈ S, columns = (inst.zip advice).map fun q =>
      ⟨q.2.map fun p => coeffsOf d.n (ρ p), q.1.map fun p => coeffsOf d.n (ρ p)⟩)
    (hsound : ∃ Θ : Finset F, Θ.card ≤ maxWidth cs * (d.n - (cs.blindingFactors + 1)) ∧ ∀ theta ∉ Θ,
      ∀ permuted : List (List (List F × List F)),
      ∃ B : Finset F, B.card ≤ (cs.permutation.length + 2) * (d.n - (cs.blindingFactors + 1)) ∧
        ∀ beta ∉ B,
      ∃ G : Finset F, G.card ≤ (2 * cs.permutation.length + 2) * (d.n - (cs.blindingFactors + 1)) ∧
        ∀ gamma ∉ G, ∀ products : List (Products F),
        permuted.length = columns.length → products.length = columns.length →
        (∀ ps ∈ permuted, ps.length = cs.lookups.length) →
        (∀ ps ∈ products, ps.lookups.length = cs.lookups.length) →
        (∀ p ∈ assemble columns permuted products, Shape d cs p) →
      ∃ Y : Finset F, Y.card ≤ columns.length * numExpressions cs - 1 ∧ ∀ y ∉ Y,
        ∀ pieces : List (List F), pieces.length = d.quotientPolyDegree →
        (∀ q ∈ pieces, q.length = d.n) →
      ∃ Xs : Finset F, Xs.card < d.n * (d.quotientPolyDegree + 1) ∧ ∀ x ∉ Xs,
        ¬ Accepts threads d cs delta ⟨theta, beta, gamma, y⟩ pk
          (assemble columns permuted products) pieces x) :
    Doomed e (proofBound d cs inst.length) 0 S
      (fun h => Verif.Protocol.verifierProducts (withHash e h) cs inst.length)
      fun a j S' => AfterProducts threads d cs delta pk inst advice S' a.1 a.2.1 a.2.2.1 a.2.2.2.1
        a.2.2.2.2 ∧ j = 3 ∧ Narrows S S' := by
  obtain ⟨Θ, hΘ, hsound⟩ := hsound
  unfold Verif.Protocol.verifierProducts
  refine (Doomed.squeeze (N := proofBound d cs inst.length) (i := 0) Θ hΘ).bind ?_
  rintro theta _ S₁ ⟨hθ, rfl, rfl⟩
  replace hsound := hsound theta hθ
  refine (Doomed.settledM (List.range inst.length)
    (fun _ h => cs.lookups.mapM fun _ => do
      let a ← R.readPoint (withHash e h)
      let s ← R.readPoint (withHash e h)
      pure (a, s))
    (fun _ as => as.length = cs.lookups.length)
    (fun as rep => as.map fun q => (rep q.1, rep q.2)) ?_).bind ?_
  · intro k _ S₁ _
    refine (Doomed.settledM cs.lookups (fun _ h => do
      let a ← R.readPoint (withHash e h)
      let s ← R.readPoint (withHash e h)
      pure (a, s)) (fun _ _ => True) (fun q rep => (rep q.1, rep q.2)) ?_).mono ?_
    · intro k _ S₁ _
      refine Doomed.readPointS.bind ?_
      rintro a _ S₂ ⟨⟨-, ha⟩, rfl, hS₂⟩
      refine Doomed.readPointS.bind ?_
      rintro s _ S₃ ⟨⟨-, hs⟩, rfl, hS₃⟩
      refine .ret ⟨⟨trivial, fun rep hr rep' hr' => ?_⟩, rfl, hS₂.trans hS₃⟩
      exact Prod.ext ((ha.mono hS₃.sub) rep hr rep' hr') (hs rep hr rep' hr')
    · rintro as j S' ⟨⟨h1, h2⟩, h3, h4⟩
      exact ⟨⟨h1.length_eq.symm, h2⟩, h3, h4⟩
  rintro permuted _ S₂ ⟨⟨hpl, hps⟩, rfl, hS₂⟩
  obtain ⟨ρ₂, hρ₂⟩ := hS₂.ne hne
  obtain ⟨B, hB, hsound⟩ := hsound (permuted.map fun l => l.map fun q =>
    (coeffsOf d.n (ρ₂ q.1), coeffsOf d.n (ρ₂ q.2)))
  refine (Doomed.squeeze (N := proofBound d cs inst.length) (i := 1) B hB).bind ?_
  rintro beta _ S₂ ⟨hβ, rfl, rfl⟩
  obtain ⟨G, hG, hsound⟩ := hsound beta hβ
  refine (Doomed.squeeze (N := proofBound d cs inst.length) (i := 2) G hG).bind ?_
  rintro gamma _ S₂ ⟨hγ, rfl, rfl⟩
  replace hsound := hsound gamma hγ
  refine (Doomed.settledM (List.range inst.length)
    (fun _ h => (Verif.Multicore.chunks (cs.degree - 2) cs.permutation).mapM fun _ =>
      R.readPoint (withHash e h))
    (fun _ as => as.length = Verif.Permutation.numSets cs.degree cs.permutation)
    (fun as rep => as.map rep) ?_).bind ?_
  · intro k _ S₁ _
    refine (Doomed.settledM (Verif.Multicore.chunks (cs.degree - 2) cs.permutation)
      (fun _ h => R.readPoint (withHash e h)) (fun _ _ => True) (fun q rep => rep q)
      fun _ _ _ _ => Doomed.readPointS).mono ?_
    rintro as j S' ⟨⟨h1, h2⟩, h3, h4⟩
    exact ⟨⟨h1.length_eq.symm, h2⟩, h3, h4⟩
  rintro products _ S₃ ⟨⟨hql, hqs⟩, rfl, hS₃⟩
  refine (Doomed.settledM permuted
    (fun ls h => ls.mapM fun (l : A × A) => do
      let z ← R.readPoint (withHash e h)
      pure (z, l))
    (fun ls as => as.map Prod.snd = ls)
    (fun as rep => as.map fun q => rep q.1) ?_).bind ?_
  · intro ls _ S₁ _
    refine (Doomed.settledM ls (fun l h => do
      let z ← R.readPoint (withHash e h)
      pure (z, l)) (fun l q => q.2 = l) (fun q rep => rep q.1) ?_).mono ?_
    · intro l _ S₁ _
      refine Doomed.readPointS.bind ?_
      rintro a _ S₂ ⟨⟨-, ha⟩, rfl, hS₂⟩
      exact .ret ⟨⟨rfl, ha⟩, rfl, hS₂⟩
    · rintro as j S' ⟨⟨h1, h2⟩, h3, h4⟩
      exact ⟨⟨map_of_forall₂ h1, h2⟩, h3, h4⟩
  rintro lookups _ S₄ ⟨⟨hll, hls⟩, rfl, hS₄⟩
  have hsnd : lookups.map (fun l => l.map Prod.snd) = permuted := map_of_forall₂ hll
  subst hsnd
  have hk : (lookups.map fun l => l.map Prod.snd).length = inst.length := by
    simpa using hpl.length_eq.symm
  rw [List.length_map] at hk
  have hlk : ∀ l ∈ lookups, l.length = cs.lookups.length := by
    intro l hl
    obtain ⟨i, hi, rfl⟩ := List.getElem_of_mem hl
    have := (List.forall₂_iff_get.1 hpl).2 i (by simp; omega) (by simpa using hi)
    simpa using this
  have hset : ∀ p ∈ products, p.length = Verif.Permutation.numSets cs.degree cs.permutation := by
    intro l hl
    obtain ⟨i, hi, rfl⟩ := List.getElem_of_mem hl
    exact (List.forall₂_iff_get.1 hql).2 i (by have := hql.length_eq; simp at this; simp; omega) hi
  have hpk : products.length = inst.length := by simpa using hql.length_eq.symm
  refine .ret ⟨⟨hpk, hk, hset, hlk, ?_, ?_, ?_⟩, rfl, (hS₂.trans hS₃).trans hS₄⟩
  · intro p hp q hq
    exact ((Settled.of_map hqs p hp).of_map q hq).mono hS₄.sub
  · intro l hl q hq
    have hz := (Settled.of_map hls l hl).of_map q hq
    have ha := ((Settled.of_map hps _ (List.mem_map.2 ⟨l, hl, rfl⟩)).of_map q.2
      (List.mem_map.2 ⟨q, hq, rfl⟩)).mono (hS₃.trans hS₄).sub
    exact ⟨hz, fun rep hr rep' hr' => congrArg Prod.fst (ha rep hr rep' hr'),
      fun rep hr rep' hr' => congrArg Prod.snd (ha rep hr rep' hr')⟩
  · intro ρ hρ
    have hcl : columns.length = inst.length := by
      rw [hcol ρ (((hS₂.trans hS₃).trans hS₄).sub hρ)]; simp [hlen]
    have hperm : ((lookups.map fun l => l.map Prod.snd).map fun l => l.map fun q =>
          (coeffsOf d.n (ρ₂ q.1), coeffsOf d.n (ρ₂ q.2)))
        = lookups.map fun l => l.map fun q => (coeffsOf d.n (ρ q.2.1), coeffsOf d.n (ρ q.2.2)) := by
      rw [List.map_map]
      refine List.map_congr_left fun l hl => ?_
      rw [Function.comp_apply, List.map_map]
      refine List.map_congr_left fun q hq => ?_
      have ha := ((Settled.of_map hps _ (List.mem_map.2 ⟨l, hl, rfl⟩)).of_map q.2
        (List.mem_map.2 ⟨q, hq, rfl⟩)) _ hρ₂ _ ((hS₃.trans hS₄).sub hρ)
      have h1 := congrArg Prod.fst ha
      have h2 := congrArg Prod.snd ha
      dsimp only at h1 h2
      rw [Function.comp_apply, h1, h2]
    have heq := mkComms_opened d.n ρ inst advice products lookups
    rw [← hcol ρ (((hS₂.trans hS₃).trans hS₄).sub hρ)] at heq
    rw [heq, ← hcl]
    rw [hperm] at hsound
    refine hsound _ ?_ ?_ ?_ ?_ ?_
    · simp [hk, hcl]
    · simp [hk, hcl, hpk]
    · intro ps h
      obtain ⟨l, hl, rfl⟩ := List.mem_map.1 h
      simp [hlk l hl]
    · intro ps h
      obtain ⟨l, hl, rfl⟩ := List.mem_map.1 h
      simp [hlk _ (List.of_mem_zip hl).2]
    · intro p hp
      rw [← heq] at hp
      obtain ⟨o, ho, rfl⟩ := List.mem_map.1 hp
      obtain ⟨h1, h2, h3, h4⟩ := mkComms_mem ho
      refine ⟨by simp [opened, hadv _ h2], by simp [opened, hinst _ h1], by simp [opened, hset _ h3],
        by simp [opened, hlk _ h4], ?_, ?_, ?_, ?_⟩
      all_goals
        intro v hv
        obtain ⟨w, -, rfl⟩ := List.mem_map.1 hv
        simp

/-! ## Up to the challenge `x` -/

theorem quotient_doomed [DecidableEq F] {threads : ℕ} {d : Domain F} (hn : 0 < d.n) {cs : Cs F}
    {delta : F} {pk : Pk F} {inst advice : List (List A)} {theta beta gamma : F} {products : List (List A)}
    {lookups : List (List (A × A × A))} (hne : S.Nonempty)
    (h : AfterProducts threads d cs delta pk inst advice S theta beta gamma products lookups)
    (hadv : ∀ l ∈ advice, ∀ q ∈ l, Settled S fun rep => rep q)
    (hinst : ∀ l ∈ inst, ∀ q ∈ l, Settled S fun rep => rep q) :
    Doomed e (proofBound d cs inst.length) 3 S
      (fun h => Verif.Protocol.verifierQuotient (withHash e h) d)
      fun a j S' => (Settled S' fun rep => rep a.1) ∧ (Settled S' fun rep => a.2.2.1.map rep) ∧
        (∀ ρ ∈ S', ¬ Accepts threads d cs delta ⟨theta, beta, gamma, a.2.1⟩ pk
          ((mkComms inst advice products lookups).map (opened d.n ρ))
          (a.2.2.1.map fun p => coeffsOf d.n (ρ p)) a.2.2.2) ∧ j = 5 ∧ Narrows S S' := by
  unfold Verif.Protocol.verifierQuotient
  refine Doomed.readPointS.bind ?_
  rintro random _ S₁ ⟨⟨-, hr⟩, rfl, hS₁⟩
  obtain ⟨ρ₁, hρ₁⟩ := hS₁.ne hne
  obtain ⟨Y, hY, hnext⟩ := h.next ρ₁ (hS₁.sub hρ₁)
  refine (Doomed.squeeze (N := proofBound d cs inst.length) (i := 3) Y hY).bind ?_
  rintro y _ S₁ ⟨hy, rfl, rfl⟩
  replace hnext := hnext y hy
  refine (Doomed.readNPointsS _).bind ?_
  rintro hs _ S₂ ⟨⟨hl, hh⟩, rfl, hS₂⟩
  obtain ⟨ρ₂, hρ₂⟩ := (hS₁.trans hS₂).ne hne
  obtain ⟨Xs, hX, hx⟩ := hnext (hs.map fun p => coeffsOf d.n (ρ₂ p)) (by simp [hl]) (by
    intro q hq
    obtain ⟨p, -, rfl⟩ := List.mem_map.1 hq
    simp)
  refine (Doomed.squeeze (N := proofBound d cs inst.length) (i := 4) Xs
    (show Xs.card ≤ d.n * (d.quotientPolyDegree + 1) - 1 by omega)).bind ?_
  rintro x _ S₂ ⟨hxx, rfl, rfl⟩
  refine .ret ⟨hr.mono hS₂.sub, hh, fun ρ hρ => ?_, rfl, hS₁.trans hS₂⟩
  have e1 : (hs.map fun p => coeffsOf d.n (ρ p)) = hs.map fun p => coeffsOf d.n (ρ₂ p) :=
    List.map_congr_left fun p hp => congrArg _ (hh.of_map p hp ρ hρ ρ₂ hρ₂)
  have e2 : (mkComms inst advice products lookups).map (opened d.n ρ)
      = (mkComms inst advice products lookups).map (opened d.n ρ₁) := by
    have hk := hS₂.sub hρ
    refine List.map_congr_left fun o ho => ?_
    obtain ⟨h1, h2, h3, h4⟩ := mkComms_mem ho
    unfold opened
    congr 1
    · exact List.map_congr_left fun p hp =>
        congrArg _ ((hadv _ h2 p hp) ρ (hS₁.sub hk) ρ₁ (hS₁.sub hρ₁))
    · exact List.map_congr_left fun p hp =>
        congrArg _ ((hinst _ h1 p hp) ρ (hS₁.sub hk) ρ₁ (hS₁.sub hρ₁))
    · exact List.map_congr_left fun p hp =>
        congrArg _ ((h.settled₁ _ h3 p hp) ρ (hS₁.sub hk) ρ₁ (hS₁.sub hρ₁))
    · refine List.map_congr_left fun p hp => ?_
      obtain ⟨g1, g2, g3⟩ := h.settled₂ _ h4 p hp
      have g1 := g1 ρ (hS₁.sub hk) ρ₁ (hS₁.sub hρ₁)
      have g2 := g2 ρ (hS₁.sub hk) ρ₁ (hS₁.sub hρ₁)
      have g3 := g3 ρ (hS₁.sub hk) ρ₁ (hS₁.sub hρ₁)
      dsimp only at g1 g2 g3
      rw [g1, g2, g3]
  dsimp only
  rw [e1, e2]
  exact hx x hxx

/-! ## After the columns -/

variable [LinearOrder F]

/-- `verify_proof` after the commitments to the columns are read: verifier.rs 125-346. -/
def afterColumns (e : Enc F K A) (pr : Params A) (d : Domain F) (cs : Cs F) (delta : F) (vk : Vk F A)
    (inst advice : List (List A)) : R F (Verif.Ipa.Guard F K) := do
  let a ← verifierProducts e cs inst.length
  let b ← verifierQuotient e d
  verifierOpen e pr d cs delta vk
    { theta := a.1, beta := a.2.1, gamma := a.2.2.1, y := b.2.1, x := b.2.2.2, random := b.1,
      h := b.2.2.1, comms := mkComms inst advice a.2.2.2.1 a.2.2.2.2 } MSM.new

theorem verifyGuard_eq (e : Enc F K A) (pr : Params A) (d : Domain F) (cs : Cs F) (delta : F)
    (vk : Vk F A) (instances : List (List (List F))) :
    verifyGuard e pr d cs delta vk instances MSM.new
      = (verifierColumns e pr cs vk.repr instances >>= fun a =>
        afterColumns e pr d cs delta vk a.1 a.2) := by
  unfold verifyGuard verifierRead afterColumns
  simp only [bind_assoc, pure_bind]
  rfl

theorem Logs.afterColumns {d : Domain F} {cs : Cs F} {delta : F} {vk : Vk F A}
    {inst advice : List (List A)} :
    Logs (Comb F) e (Verif.Sound.afterColumns e pr d cs delta vk inst advice) := by
  unfold Verif.Sound.afterColumns
  logs

theorem hComb_eval {threads : ℕ} {d : Domain F} (hd : d.Valid) (ht : threads ≠ 0) {rep : A → Comb F}
    (hr : ∀ p, (rep p).1.degree < d.n) (x xn : F) (h : List A) :
    ∃ out, Verif.Vanishing.recombine threads d xn (h.map fun p => coeffsOf d.n (rep p)) = some out ∧
      evalPolynomial out x = (hComb rep xn h).1.eval x := by
  obtain ⟨out, h1, -, h2⟩ := Verif.Vanishing.recombine_spec hd threads ht xn
    (h.map fun p => coeffsOf d.n (rep p)) (by
      intro q hq
      obtain ⟨p, -, rfl⟩ := List.mem_map.1 hq
      simp)
  refine ⟨out, h1, ?_⟩
  rw [evalPolynomial_eq, h2]
  congr 1
  clear h1 h2
  induction h with
  | nil => rfl
  | cons c h ih =>
    rw [List.map_cons, List.foldr_cons, ih, toPoly_coeffsOf (hr c)]
    simp [hComb, smul_eq_C_mul, mul_comm]

theorem afterColumns_doomed (he : e.Valid) {threads : ℕ} {d : Domain F} (hs : Setup threads pr d)
    (ht : threads ≠ 0) {cs : Cs F} {delta : F} {pk : Pk F} {vk : Vk F A}
    (hvk : vk.permCommitments.length = cs.permutation.length)
    {inst advice : List (List A)} (hlen : advice.length = inst.length)
    (hinst : ∀ l ∈ inst, l.length = cs.numInstance) (hadv : ∀ l ∈ advice, l.length = cs.numAdvice)
    {columns : List (Columns F)} (hne : S.Nonempty) (hA : ∀ rep ∈ S, Algebraic pr rep)
    (hfix : ∀ ρ ∈ S, pk.fixedPolys = vk.fixedCommitments.map fun p => coeffsOf d.n (ρ p))
    (hperm : ∀ ρ ∈ S, pk.permPolys = vk.permCommitments.map fun p => coeffsOf d.n (ρ p))
    (s2 : Settled S fun rep => vk.fixedCommitments.map rep)
    (s3 : Settled S fun rep => vk.permCommitments.map rep)
    (hadvS : ∀ l ∈ advice, ∀ q ∈ l, Settled S fun rep => rep q)
    (hinstS : ∀ l ∈ inst, ∀ q ∈ l, Settled S fun rep => rep q)
    (hcol : ∀ ρ ∈ S, columns = (inst.zip advice).map fun q =>
      ⟨q.2.map fun p => coeffsOf d.n (ρ p), q.1.map fun p => coeffsOf d.n (ρ p)⟩)
    (hsound : ∃ Θ : Finset F, Θ.card ≤ maxWidth cs * (d.n - (cs.blindingFactors + 1)) ∧ ∀ theta ∉ Θ,
      ∀ permuted : List (List (List F × List F)),
      ∃ B : Finset F, B.card ≤ (cs.permutation.length + 2) * (d.n - (cs.blindingFactors + 1)) ∧
        ∀ beta ∉ B,
      ∃ G : Finset F, G.card ≤ (2 * cs.permutation.length + 2) * (d.n - (cs.blindingFactors + 1)) ∧
        ∀ gamma ∉ G, ∀ products : List (Products F),
        permuted.length = columns.length → products.length = columns.length →
        (∀ ps ∈ permuted, ps.length = cs.lookups.length) →
        (∀ ps ∈ products, ps.lookups.length = cs.lookups.length) →
        (∀ p ∈ assemble columns permuted products, Shape d cs p) →
      ∃ Y : Finset F, Y.card ≤ columns.length * numExpressions cs - 1 ∧ ∀ y ∉ Y,
        ∀ pieces : List (List F), pieces.length = d.quotientPolyDegree →
        (∀ q ∈ pieces, q.length = d.n) →
      ∃ Xs : Finset F, Xs.card < d.n * (d.quotientPolyDegree + 1) ∧ ∀ x ∉ Xs,
        ¬ Accepts threads d cs delta ⟨theta, beta, gamma, y⟩ pk
          (assemble columns permuted products) pieces x) :
    Doomed e (proofBound d cs inst.length) 0 S
      (fun h => afterColumns (withHash e h) pr d cs delta vk inst advice)
      fun gd _ S' => ∀ rep ∈ S', GuardBad e pr rep gd := by
  have hn : 0 < d.n := by rw [← hs.n_eq]; exact hs.params.ok.pos
  unfold afterColumns
  refine (products_doomed (pk := pk) hlen hinst hadv hne hcol hsound).bind ?_
  rintro ⟨theta, beta, gamma, products, lookups⟩ _ S₁ ⟨h1, rfl, hS₁⟩
  dsimp only at h1 ⊢
  refine (quotient_doomed hn (hS₁.ne hne) h1 (fun l hl q hq => (hadvS l hl q hq).mono hS₁.sub)
    fun l hl q hq => (hinstS l hl q hq).mono hS₁.sub).bind ?_
  rintro ⟨random, y, h, x⟩ _ S₂ ⟨g1, g2, g3, rfl, hS₂⟩
  dsimp only at g1 g2 g3 ⊢
  have hS := hS₁.trans hS₂
  have hcl : (mkComms inst advice products lookups).length = inst.length := by
    simp [mkComms, hlen, h1.len₁, h1.len₂]
  refine open_doomed he hs.params hvk ?_ (fun rep h => hA rep (hS.sub h)) (hS.ne hne) ?_
    (s2.mono hS.sub) (s3.mono hS.sub) g2 g1 ?_ ?_
  · intro o ho
    obtain ⟨_, _, h3, h4⟩ := mkComms_mem ho
    exact ⟨h1.sets _ h3, h1.lks _ h4⟩
  · intro rep hr rep' hr'
    refine List.map_congr_left fun o ho => ?_
    obtain ⟨k1, k2, k3, k4⟩ := mkComms_mem ho
    unfold Opens.map
    congr 1
    · exact List.map_congr_left fun p hp => (hinstS _ k1 p hp) rep (hS.sub hr) rep' (hS.sub hr')
    · exact List.map_congr_left fun p hp => (hadvS _ k2 p hp) rep (hS.sub hr) rep' (hS.sub hr')
    · exact List.map_congr_left fun p hp =>
        (h1.settled₁ _ k3 p hp) rep (hS₂.sub hr) rep' (hS₂.sub hr')
    · refine List.map_congr_left fun p hp => ?_
      obtain ⟨g1, g2, g3⟩ := h1.settled₂ _ k4 p hp
      exact Prod.ext (g1 rep (hS₂.sub hr) rep' (hS₂.sub hr'))
        (Prod.ext (g2 rep (hS₂.sub hr) rep' (hS₂.sub hr'))
          (g3 rep (hS₂.sub hr) rep' (hS₂.sub hr')))
  · dsimp only
    rw [hcl]
    refine ⟨?_, ?_, ?_, ?_, ?_, ?_, fun t _ => ?_⟩
    · exact le_rfl
    · exact le_rfl
    · rw [hs.n_eq]; exact le_rfl
    · exact le_rfl
    · exact le_rfl
    · exact le_rfl
    · rw [show 5 + 4 + 2 + t = (t + 6) + 5 by omega]; exact le_rfl
  · intro ρ hρ fe evs hE k1 k2 k3 k4
    dsimp only at k1 k2 k3 k4
    rw [hs.n_eq] at k1 k2 k3 k4
    obtain ⟨out, r1, r2⟩ := hComb_eval hs.domain ht
      (fun p => by rw [← hs.n_eq]; exact (hA ρ (hS.sub hρ)).degree p) x (x ^ d.n) h
    refine g3 ρ hρ ⟨fe, evs, hE, out, ?_, k2, ?_, r1, r2.trans k4⟩
    · rw [hfix ρ (hS.sub hρ)]; exact k1
    · rw [hperm ρ (hS.sub hρ)]; exact k3

/-! ## The columns -/

omit [AddCommGroup A] [Module F A] [Field K] [LinearOrder K] [LinearOrder F] in
theorem mapM_run {ι α : Type} {f : ι → R F α} {l : List ι} {s s' : RState F} {as : List α}
    (h : l.mapM f s = .ok (as, s')) :
    List.Forall₂ (fun i a => ∃ s₁ s₂, f i s₁ = .ok (a, s₂)) l as := by
  induction l generalizing s s' as with
  | nil => cases h; exact .nil
  | cons i l ih =>
    rw [List.mapM_cons] at h
    obtain ⟨a, s₁, h1, h2⟩ := bind_ok h
    obtain ⟨b, s₂, h3, h4⟩ := bind_ok h2
    cases h4
    exact .cons ⟨_, _, h1⟩ (ih h3)

/-- The commitment to a public column. -/
def publicCommit (threads : ℕ) (pr : Params A) (d : Domain F) (v : List F) : A :=
  commitOf pr (coeffs threads d v, 1)

/-- What is known once the commitments to the columns are read. -/
theorem verifierColumns_ok {threads : ℕ} {d : Domain F} (hs : Setup threads pr d) {cs : Cs F} {repr : F}
    {instances : List (List (List F))} {st st₁ : RState F} {inst advice : List (List A)}
    (h : verifierColumns e pr cs repr instances st = .ok ((inst, advice), st₁)) :
    (∀ i ∈ instances, i.length = cs.numInstance ∧
      ∀ v ∈ i, v.length ≤ d.n - (cs.blindingFactors + 1)) ∧
    inst = instances.map (fun i => i.map fun v => publicCommit threads pr d (pad d.n v)) ∧
    advice.length = instances.length ∧ ∀ l ∈ advice, l.length = cs.numAdvice := by
  unfold verifierColumns at h
  obtain ⟨_, s1, h1, h⟩ := bind_ok h
  obtain ⟨inst', s2, h2, h⟩ := bind_ok h
  obtain ⟨_, s3, h3, h⟩ := bind_ok h
  obtain ⟨_, s4, h4, h⟩ := bind_ok h
  obtain ⟨advice', s5, h5, h⟩ := bind_ok h
  cases h
  have hfit : ∀ i ∈ instances, ∀ v ∈ i, cs.blindingFactors + 1 ≤ d.n ∧
      v.length ≤ d.n - (cs.blindingFactors + 1) := by
    intro i hi v hv
    obtain ⟨_, _, _, g⟩ := mapM_ok h2 i hi
    obtain ⟨_, _, _, g⟩ := mapM_ok g v hv
    obtain ⟨_, _, g, -⟩ := bind_ok g
    rw [← hs.n_eq]
    exact padInstance_ok g
  have hinst : inst = instances.map
      (fun i => i.map fun v => publicCommit threads pr d (pad d.n v)) := by
    rw [mapM_eq_pure instances (fun i => i.map fun v => publicCommit threads pr d (pad d.n v))
      fun i hi => mapM_eq_pure i (fun v => publicCommit threads pr d (pad d.n v)) fun v hv => by
        have := hfit i hi v hv
        rw [padInstance_eq _ _ _ (by rw [hs.n_eq]; exact this.1) (by rw [hs.n_eq]; exact this.2),
          pure_bind, hs.n_eq, hs.lagrange _ _ (pad_length (by omega))]
        rfl] at h2
    cases h2
    rfl
  refine ⟨fun i hi => ⟨(check_ok h1).1 i hi, fun v hv => (hfit i hi v hv).2⟩, hinst, ?_, ?_⟩
  · have := (mapM_run h5).length_eq
    rw [List.length_range] at this
    rw [← this, hinst, List.length_map]
  · intro l hl
    obtain ⟨i, hi, rfl⟩ := List.getElem_of_mem hl
    obtain ⟨s, s', g⟩ := (List.forall₂_iff_get.1 (mapM_run h5)).2 i
      (by rw [(mapM_run h5).length_eq]; exact hi) hi
    have := (mapM_run g).length_eq
    simpa using this.symm

omit [LinearOrder F] in
theorem coeffsOf_toPoly {n : ℕ} {l : List F} (hl : l.length = n) (a b : F) :
    coeffsOf n ((toPoly l, a, b) : Comb F) = l := by
  refine List.ext_getElem (by simp [hl]) fun i h1 h2 => ?_
  simp only [coeffsOf, List.getElem_map, List.getElem_range, coeff_toPoly]
  rw [List.getD_eq_getElem _ _ h2]

/-- The values on the rows of a committed column. -/
noncomputable def column (d : Domain F) (v : Comb F) : List F :=
  (List.range d.n).map fun i => v.1.eval (d.omega ^ i)

omit [LinearOrder F] in
theorem rows_coeffsOf {d : Domain F} {v : Comb F} (h : v.1.degree < d.n) :
    rows d (coeffsOf d.n v) = column d v := by
  unfold rows column Verif.Domain.evalsOn
  rw [toPoly_coeffsOf h]
  simp

/-- The columns everyone knows: fixed columns, permutation columns and padded instances. -/
def publicColumns (d : Domain F) (cs : Cs F) (delta : F) (fv : List (List F))
    (calls : List (Verif.Copy.Call Column)) (instances : List (List (List F))) : List (List F) :=
  fv ++ permsOf d cs delta calls ++ instances.flatten.map (pad d.n)

/-- Everyone represents the commitments to known columns by their interpolation. -/
def Honest (threads : ℕ) (pr : Params A) (d : Domain F) (rep : A → Comb F) (vs : List (List F)) :
    Prop :=
  ∀ v ∈ vs, rep (publicCommit threads pr d v) = (toPoly (coeffs threads d v), 0, 1)

section core
variable {threads : ℕ} {d : Domain F} {cs : Cs F} {T : ℕ} {delta : F} {fv : List (List F)}
  {calls : List (Verif.Copy.Call Column)} {pk : Pk F} {vk : Vk F A} {repr : F}

/-- For every choice of the representations of the advice columns: sets of bad challenges. -/
theorem core_sound (he : e.Valid) (hs : Setup threads pr d)
    (ht : threads ≠ 0) (hdeg : cs.degree ≤ d.quotientPolyDegree + 1) (hr : Ready cs d.n)
    (hbf : cs.blindingFactors + 1 < d.n)
    (hwidth : ∀ l ∈ cs.lookups, l.input.length = l.table.length)
    (hdelta : IsPrimitiveRoot delta T) (hT : Nat.Coprime d.n T) (hm : cs.permutation.length ≤ T)
    (hfl : fv.length = cs.numFixed) (hf : ∀ v ∈ fv, v.length = d.n)
    (hrows : ∀ c ∈ calls, c.leftRow < d.n - (cs.blindingFactors + 1) ∧
      c.rightRow < d.n - (cs.blindingFactors + 1))
    (hpk : keygenPk threads d cs.blindingFactors fv (permsOf d cs delta calls) = some pk)
    (hvk : keygenVk pr repr fv (permsOf d cs delta calls) = some vk)
    (instances : List (List (List F)))
    (hin : ∀ i ∈ instances, i.length = cs.numInstance ∧
      ∀ v ∈ i, v.length ≤ d.n - (cs.blindingFactors + 1))
    (polys : List (List (Comb F))) (hpl : polys.length = instances.length)
    (hpa : ∀ l ∈ polys, l.length = cs.numAdvice) :
    ∃ bad : List (Item F A (Comb F)) → Finset F,
      (∀ l, (bad l).card ≤ proofBound d cs instances.length (challenges l)) ∧
      ∀ rep, Algebraic pr rep →
        Honest threads pr d rep (publicColumns d cs delta fv calls instances) →
        ∀ (advice : List (List A)), advice.map (fun l => l.map rep) = polys →
        ∀ (hash : Hash F) (st st' : RState F) (gd : Verif.Ipa.Guard F K),
          afterColumns (withHash e hash) pr d cs delta vk
            (instances.map (fun i => i.map fun v => publicCommit threads pr d (pad d.n v))) advice st
            = .ok (gd, st') →
          ∃ l, Logged (withHash e hash) rep st.absorbed l st'.absorbed ∧
            (Avoids bad l → GuardBad e pr rep gd ∨ ∀ q ∈ polys.zip instances,
              ¬ Violates d cs fv calls ⟨q.1.map (column d), q.2.map (pad d.n)⟩) := by
  classical
  set pub := publicColumns d cs delta fv calls instances with hpub
  set S : Set (A → Comb F) := {rep | (Algebraic pr rep ∧ Honest threads pr d rep pub) ∧
    (polys.map fun l => l.map (point pr)).map (fun l => l.map rep) = polys} with hSdef
  -- trivial cases
  have triv : (S = ∅ ∨ ∀ q ∈ polys.zip instances,
      ¬ Violates d cs fv calls ⟨q.1.map (column d), q.2.map (pad d.n)⟩) → ∃ bad :
      List (Item F A (Comb F)) → Finset F,
      (∀ l, (bad l).card ≤ proofBound d cs instances.length (challenges l)) ∧
      ∀ rep, Algebraic pr rep → Honest threads pr d rep pub →
        ∀ (advice : List (List A)), advice.map (fun l => l.map rep) = polys →
        ∀ (hash : Hash F) (st st' : RState F) (gd : Verif.Ipa.Guard F K),
          afterColumns (withHash e hash) pr d cs delta vk
            (instances.map (fun i => i.map fun v => publicCommit threads pr d (pad d.n v))) advice st
            = .ok (gd, st') →
          ∃ l, Logged (withHash e hash) rep st.absorbed l st'.absorbed ∧
            (Avoids bad l → GuardBad e pr rep gd ∨ ∀ q ∈ polys.zip instances,
              ¬ Violates d cs fv calls ⟨q.1.map (column d), q.2.map (pad d.n)⟩) := by
    intro h
    refine ⟨fun _ => ∅, fun l => by simp, fun rep hrep hh advice ha hash st st' gd hrun => ?_⟩
    obtain ⟨l, hl⟩ := Logs.afterColumns rep _ _ _ hrun
    refine ⟨l, hl, fun _ => ?_⟩
    rcases h with h | h
    · exfalso
      have : rep ∈ S := by
        refine ⟨⟨hrep, hh⟩, ?_⟩
        rw [← ha]
        simp only [List.map_map]
        refine List.map_congr_left fun l _ => ?_
        simp only [Function.comp_apply, List.map_map]
        refine List.map_congr_left fun p _ => ?_
        simp [hrep.point_eq]
      rw [h] at this
      exact this
    · exact Or.inr h
  by_cases hviol : ∀ q ∈ polys.zip instances,
      ¬ Violates d cs fv calls ⟨q.1.map (column d), q.2.map (pad d.n)⟩
  · exact triv (Or.inr hviol)
  rcases S.eq_empty_or_nonempty with hS0 | hne
  · exact triv (Or.inl hS0)
  clear triv
  push Not at hviol
  obtain ⟨⟨pw, iw⟩, hmem, hviol⟩ := hviol
  dsimp only at hviol
  have hclen : ∀ v : List F, v.length = d.n → (coeffs threads d v).length = d.n := fun v hv =>
    (coeffs_spec hs ht v hv).2
  have hplen : ∀ v ∈ pub, v.length = d.n := by
    intro v hv
    simp only [hpub, publicColumns, List.mem_append, List.mem_map, List.mem_flatten] at hv
    rcases hv with (hv | hv) | ⟨w, ⟨i, hi, hw⟩, rfl⟩
    · exact hf v hv
    · exact (Verif.Permutation.permPolys_length _ _ _).2 v hv
    · exact pad_length (by have := (hin i hi).2 w hw; omega)
  have hA : ∀ rep ∈ S, Algebraic pr rep := fun rep h => h.1.1
  have hH : ∀ rep ∈ S, ∀ v ∈ pub, coeffsOf d.n (rep (publicCommit threads pr d v))
      = coeffs threads d v := by
    intro rep h v hv
    rw [h.1.2 v hv, coeffsOf_toPoly (hclen v (hplen v hv))]
  have hHs : ∀ v ∈ pub, Settled S fun rep => rep (publicCommit threads pr d v) :=
    fun v hv rep hr rep' hr' => (hr.1.2 v hv).trans (hr'.1.2 v hv).symm
  have hpubi : ∀ i ∈ instances, ∀ v ∈ i, pad d.n v ∈ pub := by
    intro i hi v hv
    simp only [hpub, publicColumns, List.mem_append, List.mem_map, List.mem_flatten]
    exact Or.inr ⟨v, ⟨i, hi, hv⟩, rfl⟩
  have hpubf : ∀ v ∈ fv, v ∈ pub := fun v hv => by simp [hpub, publicColumns, hv]
  have hpubp : ∀ v ∈ permsOf d cs delta calls, v ∈ pub := fun v hv => by
    simp [hpub, publicColumns, hv]
  -- keys
  have hvkf : vk.fixedCommitments = fv.map (publicCommit threads pr d) ∧
      vk.permCommitments = (permsOf d cs delta calls).map (publicCommit threads pr d) := by
    unfold keygenVk at hvk
    rw [mapM_some _ (publicCommit threads pr d) fun v hv => hs.lagrange v 1 (hplen v (hpubp v hv)),
      Option.bind_some, mapM_some _ (publicCommit threads pr d) fun v hv =>
        hs.lagrange v 1 (hplen v (hpubf v hv))] at hvk
    cases hvk
    exact ⟨rfl, rfl⟩
  have hpkf : pk.fixedPolys = fv.map (coeffs threads d) ∧
      pk.permPolys = (permsOf d cs delta calls).map (coeffs threads d) := by
    unfold keygenPk Verif.Plonk.toCoeffs at hpk
    rw [mapM_some _ (coeffs threads d) fun v hv => (coeffs_spec hs ht v (hplen v (hpubf v hv))).1,
      Option.bind_some] at hpk
    obtain ⟨_, -, hpk⟩ := Option.bind_eq_some_iff.1 hpk
    rw [mapM_some _ (coeffs threads d) fun v hv => (coeffs_spec hs ht v (hplen v (hpubp v hv))).1,
      Option.bind_some] at hpk
    obtain ⟨_, -, hpk⟩ := Option.bind_eq_some_iff.1 hpk
    obtain ⟨_, -, hpk⟩ := Option.bind_eq_some_iff.1 hpk
    obtain ⟨_, -, hpk⟩ := Option.bind_eq_some_iff.1 hpk
    obtain ⟨_, -, hpk⟩ := Option.map_eq_some_iff.1 hpk
    subst hpk
    exact ⟨rfl, rfl⟩
  have hvkl : vk.permCommitments.length = cs.permutation.length := by
    rw [hvkf.2, List.length_map]
    exact (Verif.Permutation.permPolys_length _ _ _).1
  -- columns
  set columns : List (Columns F) := (instances.zip polys).map fun q =>
    ⟨q.2.map (coeffsOf d.n), q.1.map fun v => coeffs threads d (pad d.n v)⟩ with hcols
  have hdegA : ∀ rep ∈ S, ∀ p, (rep p).1.degree < d.n := fun rep h p => by
    rw [← hs.n_eq]; exact (hA rep h).degree p
  have hcol : ∀ ρ ∈ S, columns = ((instances.map fun i => i.map fun v =>
      publicCommit threads pr d (pad d.n v)).zip (polys.map fun l => l.map (point pr))).map fun q =>
      (⟨q.2.map fun p => coeffsOf d.n (ρ p), q.1.map fun p => coeffsOf d.n (ρ p)⟩ : Columns F) := by
    intro ρ hρ
    have h2 := hρ.2
    rw [List.map_map] at h2
    rw [hcols, List.zip_map, List.map_map]
    refine List.map_congr_left fun q hq => ?_
    obtain ⟨hq1, hq2⟩ := List.of_mem_zip hq
    have hq2' : (q.2.map (point pr)).map ρ = q.2 := by
      have hid : polys.map (fun l => (l.map (point pr)).map ρ) = polys.map id := by
        rw [List.map_id]; exact h2
      exact List.map_inj_left.1 hid q.2 hq2
    simp only [Function.comp_apply, Prod.map_fst, Prod.map_snd, List.map_map]
    congr 1
    · conv_lhs => rw [← hq2']
      simp only [List.map_map]
      rfl
    · refine List.map_congr_left fun v hv => ?_
      rw [Function.comp_apply, hH ρ hρ _ (hpubi _ hq1 v hv)]
  obtain ⟨ρ, hρ⟩ := hne
  have hpdeg : ∀ l ∈ polys, ∀ p ∈ l, p.1.degree < d.n := by
    intro l hl p hp
    have h2 := hρ.2
    rw [← h2, List.map_map] at hl
    obtain ⟨l', -, rfl⟩ := List.mem_map.1 hl
    obtain ⟨a, -, rfl⟩ := List.mem_map.1 hp
    exact hdegA ρ hρ a
  obtain ⟨hmp, hmi⟩ := List.of_mem_zip hmem
  have hsound := Verif.Plonk.soundness hs.domain ht hdeg hr hbf hwidth hdelta hT hm hfl hf calls
    hrows hpk columns ⟨pw.map (coeffsOf d.n), iw.map fun v => coeffs threads d (pad d.n v)⟩
    (by
      refine List.mem_map.2 ⟨(iw, pw), ?_, rfl⟩
      obtain ⟨i, hi, h⟩ := List.getElem_of_mem hmem
      rw [List.getElem_zip] at h
      obtain ⟨h1, h2⟩ := Prod.ext_iff.1 h
      dsimp only at h1 h2
      rw [← h1, ← h2]
      rw [List.length_zip] at hi
      have : i < (instances.zip polys).length := by rw [List.length_zip]; omega
      have := List.getElem_mem this
      rwa [List.getElem_zip] at this)
    (by
      convert hviol using 1
      unfold circuitOf
      congr 1
      · rw [List.map_map]
        exact List.map_congr_left fun p hp => rows_coeffsOf (hpdeg _ hmp p hp)
      · rw [List.map_map]
        refine List.map_congr_left fun v hv => ?_
        obtain ⟨p, g1, g2, g3⟩ := Verif.Plonk.toCoeffs_spec hs.domain threads ht (pad d.n v)
          (hplen _ (hpubi _ hmi v hv))
        rw [Function.comp_apply, Verif.Protocol.coeffs, g1]
        exact g3)
  have hd := afterColumns_doomed (S := S) he hs ht (vk := vk) (pk := pk) hvkl
    (inst := instances.map fun i => i.map fun v => publicCommit threads pr d (pad d.n v))
    (advice := polys.map fun l => l.map (point pr)) (by simp [hpl])
    (by
      intro l hl
      obtain ⟨i, hi, rfl⟩ := List.mem_map.1 hl
      rw [List.length_map]; exact (hin i hi).1)
    (by
      intro l hl
      obtain ⟨i, hi, rfl⟩ := List.mem_map.1 hl
      rw [List.length_map]; exact hpa i hi)
    ⟨ρ, hρ⟩ hA
    (by
      intro ρ hρ
      rw [hpkf.1, hvkf.1, List.map_map]
      exact List.map_congr_left fun v hv => (hH ρ hρ v (hpubf v hv)).symm)
    (by
      intro ρ hρ
      rw [hpkf.2, hvkf.2, List.map_map]
      exact List.map_congr_left fun v hv => (hH ρ hρ v (hpubp v hv)).symm)
    (by
      rw [hvkf.1]
      intro rep hr rep' hr'
      dsimp only
      rw [List.map_map, List.map_map]
      exact List.map_congr_left fun v hv => hHs v (hpubf v hv) rep hr rep' hr')
    (by
      rw [hvkf.2]
      intro rep hr rep' hr'
      dsimp only
      rw [List.map_map, List.map_map]
      exact List.map_congr_left fun v hv => hHs v (hpubp v hv) rep hr rep' hr')
    (by
      have : Settled S fun rep =>
          (polys.map fun l => l.map (point pr)).map fun l => l.map rep := by
        intro rep hr rep' hr'
        exact hr.2.trans hr'.2.symm
      intro l hl q hq
      exact (this.of_map l hl).of_map q hq)
    (by
      intro l hl q hq
      obtain ⟨i, hi, rfl⟩ := List.mem_map.1 hl
      obtain ⟨v, hv, rfl⟩ := List.mem_map.1 hq
      exact hHs _ (hpubi i hi v hv))
    hcol hsound
  obtain ⟨bad, h1, h2⟩ := hd.bad he
  refine ⟨bad, fun l => ?_, fun rep hrep hh advice ha hash st st' gd hrun => ?_⟩
  · have := h1 l
    rwa [List.length_map, zero_add] at this
  · have hadv : advice = polys.map fun l => l.map (point pr) := by
      rw [← ha, List.map_map]
      conv_lhs => rw [← List.map_id advice]
      refine List.map_congr_left fun l _ => ?_
      rw [Function.comp_apply, List.map_map]
      conv_lhs => rw [id, ← List.map_id l]
      exact List.map_congr_left fun p _ => (hrep.point_eq p).symm
    rw [hadv] at hrun
    obtain ⟨l, h3, h4⟩ := h2 hash st gd st' hrun rep ⟨⟨hrep, hh⟩, by rw [← hadv]; exact ha⟩
    refine ⟨l, h3, fun hav => Or.inl ?_⟩
    obtain ⟨S', hS', h5⟩ := h4 hav
    exact h5 rep hS'

/-- Whoever represents the commitment to a known column otherwise knows a relation. -/
theorem dishonest_relation (hs : Setup threads pr d) (ht : threads ≠ 0) {rep : A → Comb F}
    (hrep : Algebraic pr rep) {v : List F} (hv : v.length = d.n)
    (h : rep (publicCommit threads pr d v) ≠ (toPoly (coeffs threads d v), 0, 1)) :
    ∃ (C : A) (P : F[X]), pr.commitLagrange v 1 = some C ∧ P.degree < (d.n : WithBot ℕ) ∧ column d (P, 0, 1) = v ∧
      Relation pr (rep C - (P, 0, 1)) := by
  obtain ⟨p, g1, g2, g3⟩ := Verif.Plonk.toCoeffs_spec hs.domain threads ht v hv
  have hc : coeffs threads d v = p := by rw [Verif.Protocol.coeffs, g1]; rfl
  have hdp : (toPoly p).degree < d.n := by rw [← g2]; exact degree_toPoly_lt _
  refine ⟨_, toPoly p, hs.lagrange v 1 hv, hdp, ?_, ?_, ?_, ?_⟩
  · rw [← rows_coeffsOf hdp, coeffsOf_toPoly g2, g3]
  · rw [hc] at h
    rw [hc]
    unfold publicCommit at h
    rw [hc] at h
    exact sub_ne_zero.2 h
  · rw [Prod.fst_sub]
    exact (degree_sub_le _ _).trans_lt (max_lt (hrep.degree _) (by rw [hs.n_eq]; exact hdp))
  · rw [sub_eq_add_neg, point_add, hrep.point_eq, ← neg_one_smul F ((toPoly p, 0, 1) : Comb F),
      point_smul, neg_one_smul, hc, ← sub_eq_add_neg, sub_eq_zero]
    rw [show ((toPoly p, 0, 1) : Comb F) = (toPoly p, 0, 0) + (0, 0, 1) by simp, point_add,
      point_poly hs.params.g_len p (by rw [hs.n_eq, g2])]
    simp [commitOf, point]

/-- **C53**: verifying a proof that is accepted extracts a witness.  Fix keys made for a circuit and
public inputs.  For any representations of the advice commitments over the generators there are sets
of bad challenges, chosen before the hash function and of the sizes `proofBound`.  In every run that
`verify_proof` accepts, with any hash function and any proof, a challenge squeezed after the columns
is bad; or the final check is a non-trivial relation between the generators; or the representation
given for the commitment to a public column yields such a relation; or the represented advice
columns with the padded instances violate no gate, copy or lookup. -/
theorem proof_sound [DecidableEq A] (he : e.Valid) (hs : Setup threads pr d)
    (ht : threads ≠ 0) (hdeg : cs.degree ≤ d.quotientPolyDegree + 1) (hr : Ready cs d.n)
    (hbf : cs.blindingFactors + 1 < d.n)
    (hwidth : ∀ l ∈ cs.lookups, l.input.length = l.table.length)
    (hdelta : IsPrimitiveRoot delta T) (hT : Nat.Coprime d.n T) (hm : cs.permutation.length ≤ T)
    (hfl : fv.length = cs.numFixed) (hf : ∀ v ∈ fv, v.length = d.n)
    (hrows : ∀ c ∈ calls, c.leftRow < d.n - (cs.blindingFactors + 1) ∧
      c.rightRow < d.n - (cs.blindingFactors + 1))
    (hpk : keygenPk threads d cs.blindingFactors fv (permsOf d cs delta calls) = some pk)
    (hvk : keygenVk pr repr fv (permsOf d cs delta calls) = some vk)
    (instances : List (List (List F))) :
    ∃ bad : List (List (Comb F)) → List (Item F A (Comb F)) → Finset F,
      (∀ polys l, (bad polys l).card ≤ proofBound d cs instances.length (challenges l)) ∧
      ∀ rep, Algebraic pr rep → ∀ (hash : Hash F) (st st' : RState F),
        verifySingle (withHash e hash) pr d cs delta vk instances st = .ok ((), st') →
        ∃ inst advice st₁ gd m l,
          verifierColumns (withHash e hash) pr cs vk.repr instances st = .ok ((inst, advice), st₁) ∧
          verifyGuard (withHash e hash) pr d cs delta vk instances MSM.new st = .ok (gd, st') ∧
          gd.useChallenges pr = some m ∧
          Logged (withHash e hash) rep st₁.absorbed l st'.absorbed ∧
          advice.length = instances.length ∧ (∀ a ∈ advice, a.length = cs.numAdvice) ∧
          (Avoids (bad (advice.map fun a => a.map rep)) l →
            Relation pr (relOf e.toCoords rep m) ∨
            (∃ v ∈ publicColumns d cs delta fv calls instances, ∃ (C : A) (P : F[X]),
              pr.commitLagrange v 1 = some C ∧ P.degree < (d.n : WithBot ℕ) ∧ column d (P, 0, 1) = v ∧
              Relation pr (rep C - (P, 0, 1))) ∨
            ∀ q ∈ advice.zip instances, ¬ Violates d cs fv calls
              ⟨q.1.map fun p => column d (rep p), q.2.map (pad d.n)⟩) := by
  classical
  have hcore : ∀ polys : List (List (Comb F)), ∃ bad : List (Item F A (Comb F)) → Finset F,
      (∀ l, (bad l).card ≤ proofBound d cs instances.length (challenges l)) ∧
      ((∀ i ∈ instances, i.length = cs.numInstance ∧
        ∀ v ∈ i, v.length ≤ d.n - (cs.blindingFactors + 1)) → polys.length = instances.length →
        (∀ l ∈ polys, l.length = cs.numAdvice) →
      ∀ rep, Algebraic pr rep →
        Honest threads pr d rep (publicColumns d cs delta fv calls instances) →
        ∀ (advice : List (List A)), advice.map (fun l => l.map rep) = polys →
        ∀ (hash : Hash F) (st st' : RState F) (gd : Verif.Ipa.Guard F K),
          afterColumns (withHash e hash) pr d cs delta vk
            (instances.map (fun i => i.map fun v => publicCommit threads pr d (pad d.n v))) advice st
            = .ok (gd, st') →
          ∃ l, Logged (withHash e hash) rep st.absorbed l st'.absorbed ∧
            (Avoids bad l → GuardBad e pr rep gd ∨ ∀ q ∈ polys.zip instances,
              ¬ Violates d cs fv calls ⟨q.1.map (column d), q.2.map (pad d.n)⟩)) := by
    intro polys
    by_cases h : (∀ i ∈ instances, i.length = cs.numInstance ∧
        ∀ v ∈ i, v.length ≤ d.n - (cs.blindingFactors + 1)) ∧ polys.length = instances.length ∧
        ∀ l ∈ polys, l.length = cs.numAdvice
    · obtain ⟨bad, h1, h2⟩ := core_sound he hs ht hdeg hr hbf hwidth hdelta hT hm hfl hf hrows hpk hvk
        instances h.1 polys h.2.1 h.2.2
      exact ⟨bad, h1, fun _ _ _ => h2⟩
    · exact ⟨fun _ => ∅, fun l => by simp, fun h1 h2 h3 => absurd ⟨h1, h2, h3⟩ h⟩
  choose bad hcard hbad using hcore
  refine ⟨bad, hcard, fun rep hrep hash st st' hrun => ?_⟩
  unfold verifySingle at hrun
  obtain ⟨gd, s1, h1, hrun⟩ := bind_ok hrun
  obtain ⟨m, s2, h2, hrun⟩ := bind_ok hrun
  obtain ⟨ok, s3, h3, hrun⟩ := bind_ok hrun
  obtain ⟨hok, hst⟩ := check_ok hrun
  have hm2 : gd.useChallenges pr = some m ∧ s2 = s1 := by
    rcases hg : gd.useChallenges pr with _ | m'
    · rw [hg] at h2; cases h2
    · rw [hg] at h2; cases h2; exact ⟨rfl, rfl⟩
  have hm3 : m.eval e.toCoords pr = some ok ∧ s3 = s2 := by
    rw [withHash_toCoords] at h3
    rcases hg : m.eval e.toCoords pr with _ | m'
    · rw [hg] at h3; cases h3
    · rw [hg] at h3; cases h3; exact ⟨rfl, rfl⟩
  obtain ⟨hm2, hst2⟩ := hm2
  obtain ⟨hm3, hst3⟩ := hm3
  subst hok
  rw [← hst2, ← hst3, ← hst] at h1
  have h1' := h1
  rw [verifyGuard_eq] at h1'
  obtain ⟨⟨inst, advice⟩, st₁, hcolrun, hafter⟩ := bind_ok h1'
  dsimp only at hafter
  obtain ⟨hin, hinst, hal, haa⟩ := verifierColumns_ok hs hcolrun
  subst hinst
  have hzip : (advice.map fun a => a.map rep).zip instances
      = (advice.zip instances).map fun q => (q.1.map rep, q.2) := by
    conv_lhs => rw [← List.map_id instances]
    rw [List.zip_map]
    rfl
  by_cases hh : Honest threads pr d rep (publicColumns d cs delta fv calls instances)
  · obtain ⟨l, h4, h5⟩ := hbad (advice.map fun a => a.map rep) hin (by simp [hal])
      (by
        intro l hl
        obtain ⟨a, ha, rfl⟩ := List.mem_map.1 hl
        rw [List.length_map]; exact haa a ha) rep hrep hh advice rfl hash st₁ st' gd hafter
    refine ⟨_, advice, st₁, gd, m, l, hcolrun, h1, hm2, h4, hal, haa, fun hav => ?_⟩
    rcases h5 hav with h5 | h5
    · left
      obtain ⟨w, hw, hw0⟩ := useChallenges_bad hs.params h5 hm2
      exact relation_of_eval he hs.params hrep hw hw0 hm3
    · right; right
      intro q hq
      have := h5 (q.1.map rep, q.2) (by rw [hzip]; exact List.mem_map.2 ⟨q, hq, rfl⟩)
      rw [List.map_map] at this
      exact this
  · obtain ⟨l, hl⟩ := Logs.afterColumns rep _ _ _ hafter
    refine ⟨_, advice, st₁, gd, m, l, hcolrun, h1, hm2, hl, hal, haa, fun _ => Or.inr (Or.inl ?_)⟩
    unfold Honest at hh
    push Not at hh
    obtain ⟨v, hv, hne⟩ := hh
    refine ⟨v, hv, dishonest_relation hs ht hrep ?_ hne⟩
    simp only [publicColumns, List.mem_append, List.mem_map, List.mem_flatten] at hv
    rcases hv with (hv | hv) | ⟨w, ⟨i, hi, hw⟩, rfl⟩
    · exact hf v hv
    · exact (Verif.Permutation.permPolys_length _ _ _).2 v hv
    · exact pad_length (by have := (hin i hi).2 w hw; omega)

end core

end Verif.Sound
