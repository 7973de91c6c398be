import Verif.Cost.Sets
import Verif.Protocol.Props

/-!
# Counting the bytes a prover writes

`Writes w Q`: whenever `w` succeeds it has written `32 * k` bytes, for some `k` such that `Q a k`
for the result `a`.
-/

namespace Verif.Cost

open Verif.Cs (Cs Column Lookup)
open Verif.Domain (Domain)
open Verif.Plonk (Pk Circuit Leaves Permuted Product mapS)
open Verif.Msm Verif.Transcript Verif.Protocol
open Verif.Multiopen (Query setsOf)
open Verif.Multicore (chunks)

variable {F K A α β ι S : Type}

def Writes (w : W F α) (Q : α → ℕ → Prop) : Prop :=
  ∀ s a s', w s = .ok (a, s') → ∃ k, s'.out.length = s.out.length + 32 * k ∧ Q a k

namespace Writes

theorem pure {a : α} {Q : α → ℕ → Prop} (h : Q a 0) : Writes (Pure.pure a : W F α) Q := by
  intro s a' s' hw; cases hw; exact ⟨0, rfl, h⟩

theorem bind {w : W F α} {f : α → W F β} {Q : α → ℕ → Prop} {Q' : β → ℕ → Prop} (h : Writes w Q)
    (hf : ∀ a k, Q a k → Writes (f a) fun b k' => Q' b (k + k')) : Writes (w >>= f) Q' := by
  intro s b s' hw
  obtain ⟨a, s₁, h1, h2⟩ := bind_ok hw
  obtain ⟨k, h3, h4⟩ := h _ _ _ h1
  obtain ⟨k', h5, h6⟩ := hf a k h4 _ _ _ h2
  exact ⟨k + k', by rw [h5, h3]; ring, h6⟩

theorem mono {w : W F α} {Q Q' : α → ℕ → Prop} (h : Writes w Q) (hQ : ∀ a k, Q a k → Q' a k) :
    Writes w Q' := by
  intro s a s' hw
  obtain ⟨k, h1, h2⟩ := h _ _ _ hw
  exact ⟨k, h1, hQ _ _ h2⟩

theorem panics (x : Option α) : Writes (Transcript.panics x : W F α) fun a k => x = some a ∧ k = 0 := by
  cases x with
  | none => intro s a s' h; cases h
  | some a => exact pure ⟨rfl, rfl⟩

theorem fails (err : Err) (x : Option α) :
    Writes (Transcript.fails err x : W F α) fun a k => x = some a ∧ k = 0 := by
  cases x with
  | none => intro s a s' h; cases h
  | some a => exact pure ⟨rfl, rfl⟩

theorem throw {err : Err} {Q : α → ℕ → Prop} : Writes (throw err : W F α) Q := by
  intro s a s' h; cases h

theorem check (c : Prop) [Decidable c] (err : Err) :
    Writes (Protocol.check c err : W F Unit) fun _ k => c ∧ k = 0 := by
  unfold Protocol.check
  by_cases h : c
  · rw [if_pos h]; exact pure ⟨h, rfl⟩
  · rw [if_neg h]; exact throw

theorem mapErr {w : W F α} {Q : α → ℕ → Prop} (err : Err) (h : Writes w Q) :
    Writes (Transcript.mapErr err w) Q := by
  intro s a s' hw
  apply h s a s'
  unfold Transcript.mapErr at hw
  split at hw <;> first | cases hw | skip
  rename_i r hr
  rw [hr]

theorem squeeze (e : Enc F K A) : Writes (W.squeeze e) fun _ k => k = 0 := by
  intro s a s' h
  unfold W.squeeze at h
  dsimp only at h
  split at h
  · cases h
  · cases h; exact ⟨0, rfl, rfl⟩

theorem commonPoint (e : Enc F K A) (p : A) : Writes (W.commonPoint e p : W F Unit) fun _ k => k = 0 := by
  intro s a s' h
  obtain ⟨_, _, -, rfl⟩ := commonPoint_run _ _ _ _ _ h
  exact ⟨0, rfl, rfl⟩

theorem commonScalar (e : Enc F K A) (x : F) : Writes (W.commonScalar e x) fun _ k => k = 0 := by
  intro s a s' h
  cases h
  exact ⟨0, rfl, rfl⟩

section
variable [Field K] [AddCommGroup A] {e : Enc F K A} (he : e.Valid)
include he

theorem writePoint (p : A) : Writes (W.writePoint e p : W F Unit) fun _ k => k = 1 := by
  refine (commonPoint e p).bind fun _ k hk => ?_
  intro s a s' h
  cases h
  exact ⟨1, by simp [he.point_len], by omega⟩

theorem writeScalar (x : F) : Writes (W.writeScalar e x) fun _ k => k = 1 := by
  refine (commonScalar e x).bind fun _ k hk => ?_
  intro s a s' h
  cases h
  exact ⟨1, by simp [he.scalar_len], by omega⟩

end

theorem mapM {f : ι → W F α} {l : List ι} {P : α → Prop} {c : ℕ}
    (h : ∀ i ∈ l, Writes (f i) fun a k => k = c ∧ P a) :
    Writes (l.mapM f) fun as k => as.length = l.length ∧ k = l.length * c ∧ ∀ a ∈ as, P a := by
  induction l with
  | nil => exact pure ⟨rfl, by simp, by simp⟩
  | cons i l ih =>
    rw [List.mapM_cons]
    refine (h i (by simp)).bind fun a k ⟨h1, h2⟩ =>
      (ih fun j hj => h j (List.mem_cons_of_mem _ hj)).bind fun as k' ⟨h3, h4, h5⟩ => pure ?_
    refine ⟨by simp [h3], ?_, ?_⟩
    · rw [h1, h4, List.length_cons]; ring
    · intro b hb
      rcases List.mem_cons.1 hb with rfl | hb
      · exact h2
      · exact h5 b hb

theorem mapSW {f : α → S → W F (β × S)} {l : List α} {s : S} {P : β → Prop} {c : ℕ}
    (h : ∀ i ∈ l, ∀ s, Writes (f i s) fun a k => k = c ∧ P a.1) :
    Writes (Protocol.mapSW f l s) fun as k => as.1.length = l.length ∧ k = l.length * c ∧
      ∀ a ∈ as.1, P a := by
  induction l generalizing s with
  | nil => exact pure ⟨rfl, by simp, by simp⟩
  | cons i l ih =>
    unfold Protocol.mapSW
    refine (h i (by simp) s).bind fun a k ⟨h1, h2⟩ =>
      (ih fun j hj => h j (List.mem_cons_of_mem _ hj)).bind fun as k' ⟨h3, h4, h5⟩ => pure ?_
    refine ⟨by simp [h3], ?_, ?_⟩
    · rw [h1, h4, List.length_cons]; ring
    · intro b hb
      rcases List.mem_cons.1 hb with rfl | hb
      · exact h2
      · exact h5 b hb

end Writes

section
variable [Field F] [AddCommGroup A] [Module F A] [Field K] {threads : ℕ} {e : Enc F K A}
  {pr : Params A} {d : Domain F} {cs : Cs F}

open Writes

/-! ## Columns -/

theorem proverInstance_writes (inst : List (List F)) :
    Writes (proverInstance e pr d cs inst) fun _ k => k = 0 := by
  unfold proverInstance
  have hpad : ∀ v : List F, Writes (padInstance d.n cs.blindingFactors v : W F (List F))
      fun _ k => k = 0 := by
    intro v
    unfold padInstance
    exact (Writes.check _ _).bind fun _ k h1 => (Writes.check _ _).bind fun _ k h2 => Writes.pure (by omega)
  refine (Writes.mapM (P := fun _ => True) (c := 0) fun v _ =>
    (Writes.check _ _).bind fun _ k h1 => (hpad v).mono fun _ k' h => ⟨by omega, trivial⟩).bind
    fun _ k ⟨_, h1, _⟩ => ?_
  refine (Writes.panics _).bind fun _ k' h2 => ?_
  refine (Writes.mapM (P := fun _ => True) (c := 0) fun c _ =>
    (commonPoint e c).mono fun _ k h => ⟨h, trivial⟩).bind fun _ k'' ⟨_, h3, _⟩ => Writes.pure ?_
  simp at h1 h3
  omega

theorem mapM_length {α β : Type*} {f : α → Option β} {l : List α} {r : List β}
    (h : l.mapM f = some r) : r.length = l.length :=
  (List.Forall₂.length_eq (Verif.Plonk.mapM_inv h)).symm

theorem proverAdvice_writes (he : e.Valid) (rng : Rng F) (i : ℕ) (advice : List (List F)) :
    Writes (proverAdvice e pr cs rng i advice) fun _ k => k = advice.length := by
  unfold proverAdvice
  refine (Writes.check _ _).bind fun _ k h1 => (Writes.panics _).bind fun cm k' ⟨h2, h2'⟩ => ?_
  refine (Writes.mapM (P := fun _ => True) (c := 1) fun c _ =>
    (writePoint he c).mono fun _ k h => ⟨h, trivial⟩).bind fun _ k'' ⟨_, h3, _⟩ => Writes.pure ?_
  have := mapM_length h2
  simp [blindCircuit] at this
  omega

theorem proverColumns_writes (he : e.Valid) (repr : F) (rng : Rng F)
    (circuits instances : List (List (List F))) (hadv : ∀ c ∈ circuits, c.length = cs.numAdvice) :
    Writes (proverColumns e pr d cs repr rng circuits instances)
      fun ws k => ws.length = circuits.length ∧ k = circuits.length * cs.numAdvice := by
  unfold proverColumns
  refine (Writes.check _ _).bind fun _ k1 h1 => (Writes.check _ _).bind fun _ k2 h2 =>
    (commonScalar e repr).bind fun _ k3 h3 => ?_
  refine (Writes.mapM (P := fun _ => True) (c := 0) fun i _ =>
    (proverInstance_writes i).mono fun _ k h => ⟨h, trivial⟩).bind fun insts k4 ⟨h4, h4', _⟩ => ?_
  refine (Writes.mapM (P := fun _ => True) (c := cs.numAdvice) fun q hq =>
    (proverAdvice_writes he rng q.2 q.1).mono fun _ k h => ⟨?_, trivial⟩).bind
    fun adv k5 ⟨h5, h5', _⟩ => Writes.pure ?_
  · simp only [List.length_zipIdx] at h5 h5'
    refine ⟨?_, by simp at h4'; omega⟩
    rw [List.length_map, List.length_zip]
    omega
  · rw [h]; exact hadv _ (List.fst_mem_of_mem_zipIdx hq)

/-! ## Product columns -/

theorem commitPermutedW_writes [LinearOrder F] (he : e.Valid) (bf : ℕ) (theta : F) (rng : Rng F)
    (P : Prep F) (v c : Leaves) (l : Lookup F) (ctx : List (List F)) :
    Writes (commitPermutedW threads e pr d bf theta rng P v c l ctx) fun _ k => k = 2 := by
  unfold commitPermutedW
  refine (Writes.fails _ _).bind fun _ k1 h1 => (Writes.panics _).bind fun _ k2 h2 => (Writes.panics _).bind fun _ k3 h3 =>
    (writePoint he _).bind fun _ k4 h4 => (writePoint he _).bind fun _ k5 h5 => Writes.pure ?_
  omega

theorem commitRowsW_writes (he : e.Valid) (rng : Rng F) (z : List F) (ctx : List (List F)) :
    Writes (commitRowsW threads e pr d rng z ctx) fun _ k => k = 1 := by
  unfold commitRowsW
  refine (Writes.panics _).bind fun _ k1 h1 => (Writes.panics _).bind fun _ k2 h2 =>
    (writePoint he _).bind fun _ k3 h3 => Writes.pure ?_
  omega

/-- The number of columns of products of the permutation argument. -/
def numChunks (cs : Cs F) : ℕ := (chunks (cs.degree - 2) cs.permutation).length

theorem commitPermutationW_writes (he : e.Valid) (delta beta gamma : F) (rng : Rng F) (pk : Pk F)
    (hpk : pk.permutations.length = cs.permutation.length) (w : Circuit F) (ctx : List (List F)) :
    Writes (commitPermutationW threads e pr d cs delta beta gamma rng pk w ctx)
      fun r k => k = numChunks cs ∧ r.1.length = numChunks cs := by
  unfold commitPermutationW
  refine (Writes.panics _).bind fun zs k1 ⟨h1, h1'⟩ => ?_
  split_ifs at h1
  have hl := commit_length hpk h1
  refine (Writes.mapSW (P := fun _ => True) (c := 1) fun z _ ctx =>
    (commitRowsW_writes he rng z ctx).mono fun _ k h => ⟨h, trivial⟩).mono fun r k ⟨h2, h3, _⟩ => ?_
  unfold numChunks
  omega

theorem commitProductW_writes (he : e.Valid) (bf : ℕ) (beta gamma : F) (rng : Rng F)
    (p : Permuted F × F × F) (ctx : List (List F)) :
    Writes (commitProductW threads e pr d bf beta gamma rng p ctx) fun _ k => k = 1 := by
  unfold commitProductW
  refine (Writes.panics _).bind fun z k1 h1 => (commitRowsW_writes he rng z ctx).mono fun _ k h => ?_
  omega

theorem proverProducts_writes [LinearOrder F] (he : e.Valid) (delta : F) (rng : Rng F) (pk : Pk F)
    (hpk : pk.permutations.length = cs.permutation.length) (ws : List (Circuit F)) (P : Prep F)
    (hP : ((P.vi.zip P.ci).zip (P.va.zip P.ca)).length = ws.length) :
    Writes (proverProducts threads e pr d cs delta rng pk ws P)
      fun r k => k = ws.length * (3 * cs.lookups.length + numChunks cs) ∧
        r.2.2.2.1.length = ws.length ∧ (∀ p ∈ r.2.2.2.1, p.length = cs.lookups.length) ∧
        r.2.2.2.2.1.length = ws.length ∧ (∀ p ∈ r.2.2.2.2.1, p.length = numChunks cs) ∧
        r.2.2.2.2.2.1.length = ws.length ∧
        (∀ p ∈ r.2.2.2.2.2.1, p.length = cs.lookups.length) := by
  unfold proverProducts
  refine (squeeze e).bind fun theta k1 h1 => ?_
  refine (Writes.mapSW (P := fun p => p.length = cs.lookups.length) (c := 2 * cs.lookups.length)
    fun q _ ctx => (Writes.mapSW (P := fun _ => True) (c := 2) fun l _ ctx =>
      (commitPermutedW_writes he cs.blindingFactors theta rng P _ _ l ctx).mono
        fun _ k h => ⟨h, trivial⟩).mono fun r k ⟨h, h', _⟩ => ⟨by rw [h']; ring, h⟩).bind
    fun permuted k2 ⟨h2, h2', h2''⟩ => ?_
  refine (squeeze e).bind fun beta k3 h3 => (squeeze e).bind fun gamma k4 h4 => ?_
  refine (Writes.mapSW (P := fun p => p.length = numChunks cs) (c := numChunks cs)
    fun w _ ctx => commitPermutationW_writes he delta beta gamma rng pk hpk w ctx).bind
    fun products k5 ⟨h5, h5', h5''⟩ => ?_
  refine (Writes.mapSW (P := fun p => p.length = cs.lookups.length) (c := cs.lookups.length)
    fun ps hps ctx => (Writes.mapSW (P := fun _ => True) (c := 1) fun p _ ctx =>
      (commitProductW_writes he cs.blindingFactors beta gamma rng p ctx).mono
        fun _ k h => ⟨h, trivial⟩).mono fun r k ⟨h, h', _⟩ =>
          ⟨by rw [h', h2'' _ hps]; ring, by rw [h, h2'' _ hps]⟩).bind
    fun lookups k6 ⟨h6, h6', h6''⟩ => Writes.pure ?_
  refine ⟨?_, by rw [h2, hP], h2'', h5, h5'', by rw [h6, h2, hP], h6''⟩
  rw [h1, h3, h4, h2', h5', h6', h2, hP]
  ring

/-! ## Quotient -/

theorem proverQuotient_writes [LinearOrder F] (he : e.Valid) (hd : d.Valid) (ht : threads ≠ 0)
    (delta : F) (rng : Rng F) (P : Prep F) (theta beta gamma : F)
    (permuted : List (List (Permuted F × F × F)))
    (products lookupProducts : List (List (Product F × F))) (ctx : List (List F)) :
    Writes (proverQuotient threads e pr d cs delta rng P theta beta gamma permuted products
      lookupProducts ctx) fun _ k => k = 1 + d.quotientPolyDegree := by
  unfold proverQuotient
  refine (Writes.panics _).bind fun _ k1 h1 => (writePoint he _).bind fun _ k2 h2 =>
    (squeeze e).bind fun y k3 h3 => (Writes.panics _).bind fun exprs k4 h4 =>
    (Writes.panics _).bind fun pieces k5 ⟨h5, h5'⟩ => (Writes.panics _).bind fun cm k6 ⟨h6, h6'⟩ => ?_
  refine (Writes.mapM (P := fun _ => True) (c := 1) fun c _ =>
    (writePoint he c).mono fun _ k h => ⟨h, trivial⟩).bind fun _ k7 ⟨_, h7, _⟩ =>
    (squeeze e).bind fun x k8 h8 => Writes.pure ?_
  have := mapM_length h6
  rw [List.length_mapIdx] at this
  have := (construct_lengths hd ht h5).1
  omega

/-! ## Evaluations -/

theorem queryEvals_length {x : F} {polys : List (List F)} {queries : List (ℕ × ℤ)} {ev : List F}
    (h : Verif.Plonk.queryEvals d x polys queries = some ev) : ev.length = queries.length :=
  mapM_length h

theorem evalQueries_writes (he : e.Valid) (x : F) (queries : List (ℕ × ℤ)) (polys : List (List F)) :
    Writes (evalQueries e d x queries polys) fun _ k => k = queries.length := by
  unfold evalQueries
  refine (Writes.panics _).bind fun ev k1 ⟨h1, h1'⟩ =>
    (Writes.mapM (P := fun _ => True) (c := 1) fun c _ =>
    (writeScalar he c).mono fun _ k h => ⟨h, trivial⟩).bind fun _ k2 ⟨_, h2, _⟩ => Writes.pure ?_
  have := queryEvals_length h1
  omega

theorem evalPermutation_writes (he : e.Valid) (bf : ℕ) (x : F) (zs : List (List F)) :
    Writes (evalPermutation e d bf x zs) fun _ k => k = 3 * zs.length - 1 := by
  induction zs with
  | nil => unfold evalPermutation; exact Writes.pure rfl
  | cons z zs ih =>
    unfold evalPermutation
    refine (writeScalar he _).bind fun _ k1 h1 => (writeScalar he _).bind fun _ k2 h2 => ?_
    by_cases hz : zs.length > 0
    · rw [if_pos hz]
      refine (writeScalar he _).bind fun _ k3 h3 => ih.mono fun _ k h => ?_
      simp only [List.length_cons]; omega
    · rw [if_neg hz]
      refine (Writes.pure (Q := fun _ k => k = 0) rfl).bind fun _ k3 h3 => ih.mono fun _ k h => ?_
      simp only [List.length_cons]; omega

theorem evalLookup_writes (he : e.Valid) (x : F) (q : List F × List F × List F) :
    Writes (evalLookup e d x q) fun _ k => k = 5 := by
  unfold evalLookup
  refine (writeScalar he _).bind fun _ k1 h1 => (writeScalar he _).bind fun _ k2 h2 =>
    (writeScalar he _).bind fun _ k3 h3 => (writeScalar he _).bind fun _ k4 h4 =>
    (writeScalar he _).mono fun _ k5 h5 => ?_
  omega

/-! ## Openings -/

theorem rounds_writes [DecidableEq F] (he : e.Valid) (z : F) (rand : ℕ → F × F) (m j : ℕ) (p b : List F)
    (g : List A) (f : F) :
    Writes (Verif.Ipa.rounds threads e pr z rand m j p b g f) fun _ k => k = 2 * m := by
  induction m generalizing j p b g f with
  | zero => unfold Verif.Ipa.rounds; exact Writes.pure rfl
  | succ m ih =>
    unfold Verif.Ipa.rounds
    refine (Writes.panics _).bind fun _ k1 h1 => (Writes.panics _).bind fun _ k2 h2 => (Writes.panics _).bind fun _ k3 h3 =>
      (Writes.panics _).bind fun _ k4 h4 => (Writes.panics _).bind fun _ k5 h5 => (Writes.panics _).bind fun _ k6 h6 =>
      (writePoint he _).bind fun _ k7 h7 => (writePoint he _).bind fun _ k8 h8 =>
      (squeeze e).bind fun _ k9 h9 => (Writes.panics _).bind fun _ k10 h10 => (Writes.panics _).bind fun _ k11 h11 =>
      (ih _ _ _ _ _).mono fun _ k h => ?_
    omega

theorem ipa_writes [DecidableEq F] (he : e.Valid) (rand : Verif.Ipa.Random F) (p : List F) (blind x : F) :
    Writes (Verif.Ipa.createProof threads e pr rand p blind x) fun _ k => k = 1 + 2 * pr.k + 2 := by
  unfold Verif.Ipa.createProof
  refine (Writes.panics _).bind fun _ k1 h1 => (Writes.panics _).bind fun _ k2 h2 => (Writes.panics _).bind fun _ k3 h3 =>
    (writePoint he _).bind fun _ k4 h4 => (squeeze e).bind fun _ k5 h5 => (squeeze e).bind fun _ k6 h6 =>
    (Writes.panics _).bind fun _ k7 h7 => (Writes.panics _).bind fun _ k8 h8 => (Writes.panics _).bind fun _ k9 h9 =>
    (Writes.panics _).bind fun _ k10 h10 => (rounds_writes he _ _ _ _ _ _ _ _).bind fun _ k11 h11 =>
    (Writes.panics _).bind fun _ k12 h12 => (Writes.panics _).bind fun _ k13 h13 => (writeScalar he _).bind
    fun _ k14 h14 => (writeScalar he _).mono fun _ k h => ?_
  omega

theorem accumulate_length {σ α : Type} {idx : α → ℕ} {f : α → σ → Option σ} {l : List α} :
    ∀ {st r : List σ}, Verif.Multiopen.accumulate idx f st l = some r → r.length = st.length := by
  unfold Verif.Multiopen.accumulate
  induction l with
  | nil => intro st r h; cases h; rfl
  | cons a l ih =>
    intro st r h
    rw [List.foldlM_cons] at h
    obtain ⟨st', h1, h2⟩ := Option.bind_eq_some_iff.1 h
    obtain ⟨x, -, h1⟩ := Option.bind_eq_some_iff.1 h1
    obtain ⟨y, -, rfl⟩ := Option.map_eq_some_iff.1 h1
    rw [ih h2, List.length_set]

theorem multiopen_writes [DecidableEq ι] [DecidableEq F] (he : e.Valid) (mem : ι → List F × F)
    (qBlind : F) (rand : Verif.Ipa.Random F) (queries : List (Query F ι Unit)) :
    Writes (Verif.Multiopen.createProof threads e pr mem qBlind rand queries)
      fun _ k => k = 1 + (setsOf queries).length + (1 + 2 * pr.k + 2) := by
  unfold Verif.Multiopen.createProof
  refine (squeeze e).bind fun _ k1 h1 => (squeeze e).bind fun _ k2 h2 => ?_
  rw [Verif.Multiopen.construct_eq]
  split_ifs
  · refine (Writes.pure (Q := fun r k => r = _ ∧ k = 0) ⟨rfl, rfl⟩).bind fun r k3 ⟨hr, h3⟩ => ?_
    subst hr
    refine (Writes.panics _).bind fun qs k4 ⟨h4, h4'⟩ => (Writes.panics _).bind fun qPolys k5 ⟨h5, h5'⟩ =>
      (Writes.panics _).bind fun _ k6 h6 => (Writes.panics _).bind fun _ k7 h7 => (Writes.panics _).bind fun _ k8 h8 =>
      (writePoint he _).bind fun _ k9 h9 => (squeeze e).bind fun _ k10 h10 =>
      (Writes.mapM (P := fun _ => True) (c := 1) fun c _ =>
        (writeScalar he _).mono fun _ k h => ⟨h, trivial⟩).bind fun _ k11 ⟨_, h11, _⟩ =>
      (squeeze e).bind fun _ k12 h12 => (Writes.panics _).bind fun _ k13 h13 =>
      (ipa_writes he _ _ _ _).mono fun _ k h => ?_
    have l1 := accumulate_length h4
    have l2 := mapM_length h5
    simp only [List.length_replicate, List.length_map] at l1
    omega
  · exact Writes.throw.bind (Q := fun _ _ => False) fun _ _ h => h.elim

end

end Verif.Cost
