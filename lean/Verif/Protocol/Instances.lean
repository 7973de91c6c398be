import Verif.Protocol.Props

/-!
# The checks of the instances (C48)
-/

namespace Verif.Protocol

open Verif.Cs (Cs Column Lookup)
open Verif.Domain (Domain Consts)
open Verif.Plonk (Pk Circuit Permuted Product)
open Verif.Msm Verif.Transcript

variable {F K A : Type} [Field F] [AddCommGroup A] [Module F A] [Field K]
variable {σ α β ι S : Type}

/-- A computation that never fails with one of the two errors about instances. -/
def Avoids (w : StateT σ (Except Err) α) : Prop :=
  ∀ s err, w s = .error err → err ≠ .invalidInstances ∧ err ≠ .instanceTooLarge

theorem bind_err {x : StateT σ (Except Err) α} {f : α → StateT σ (Except Err) β} {s : σ} {err : Err}
    (h : (x >>= f) s = .error err) :
    x s = .error err ∨ ∃ a s', x s = .ok (a, s') ∧ f a s' = .error err := by
  change (x s >>= fun p => f p.1 p.2) = _ at h
  rcases hx : x s with er | ⟨a, s'⟩
  · rw [hx] at h; cases h; exact Or.inl rfl
  · rw [hx] at h; exact Or.inr ⟨a, s', rfl, h⟩

namespace Avoids

theorem pure (a : α) : Avoids (Pure.pure a : StateT σ (Except Err) α) := by
  intro s err h; cases h

theorem throw {err : Err} (h1 : err ≠ .invalidInstances) (h2 : err ≠ .instanceTooLarge) :
    Avoids (MonadExcept.throw err : StateT σ (Except Err) α) := by
  intro s er h; cases h; exact ⟨h1, h2⟩

theorem panics (x : Option α) : Avoids (Transcript.panics x : StateT σ (Except Err) α) := by
  cases x with
  | none => exact throw (by decide) (by decide)
  | some a => exact pure a

theorem fails {err : Err} (h1 : err ≠ .invalidInstances) (h2 : err ≠ .instanceTooLarge)
    (x : Option α) : Avoids (Transcript.fails err x : StateT σ (Except Err) α) := by
  cases x with
  | none => exact throw h1 h2
  | some a => exact pure a

theorem bind {x : StateT σ (Except Err) α} {f : α → StateT σ (Except Err) β} (hx : Avoids x)
    (hf : ∀ a, Avoids (f a)) : Avoids (x >>= f) := by
  intro s err h
  rcases bind_err h with h | ⟨a, s', -, h⟩
  · exact hx s err h
  · exact hf a s' err h

theorem mapM {f : ι → StateT σ (Except Err) α} (hf : ∀ i, Avoids (f i)) (l : List ι) :
    Avoids (l.mapM f) := by
  induction l with
  | nil => exact pure _
  | cons i l ih =>
    rw [List.mapM_cons]
    exact (hf i).bind fun _ => ih.bind fun _ => pure _

theorem mapSW {f : α → S → W F (β × S)} (hf : ∀ a s, Avoids (f a s)) (l : List α) (s : S) :
    Avoids (Protocol.mapSW f l s) := by
  induction l generalizing s with
  | nil => exact pure _
  | cons a l ih => exact (hf a s).bind fun p => (ih p.2).bind fun q => pure _

theorem mapErr {err : Err} (h1 : err ≠ .invalidInstances) (h2 : err ≠ .instanceTooLarge)
    (w : StateT σ (Except Err) α) : Avoids (Transcript.mapErr err w) := by
  intro s er h
  unfold Transcript.mapErr at h
  rcases hw : w s with e | r
  · rw [hw] at h
    cases e <;> cases h <;> first | exact ⟨h1, h2⟩ | decide
  · rw [hw] at h; cases h

theorem check {err : Err} (h1 : err ≠ .invalidInstances) (h2 : err ≠ .instanceTooLarge)
    (c : Prop) [Decidable c] : Avoids (Protocol.check c err : StateT σ (Except Err) Unit) := by
  unfold Protocol.check
  split_ifs
  · exact pure _
  · exact throw h1 h2

theorem ite {c : Prop} [Decidable c] {w w' : StateT σ (Except Err) α} (h : Avoids w)
    (h' : Avoids w') : Avoids (if c then w else w') := by
  split_ifs <;> assumption

theorem commonPointW (e : Enc F K A) (p : A) : Avoids (W.commonPoint e p) := by
  intro s err h
  unfold W.commonPoint at h
  split at h <;> cases h
  decide

theorem commonPointR (e : Enc F K A) (p : A) : Avoids (R.commonPoint e p : R F Unit) := by
  intro s err h
  unfold R.commonPoint at h
  split at h <;> cases h
  decide

theorem commonScalarW (e : Enc F K A) (p : F) : Avoids (W.commonScalar e p) := by
  intro s err h; cases h

theorem commonScalarR (e : Enc F K A) (p : F) : Avoids (R.commonScalar e p) := by
  intro s err h; cases h

theorem squeezeW (e : Enc F K A) : Avoids (W.squeeze e) := by
  intro s err h
  unfold W.squeeze at h
  dsimp only at h
  split at h <;> cases h
  decide

theorem squeezeR (e : Enc F K A) : Avoids (R.squeeze e) := by
  intro s err h
  unfold R.squeeze at h
  dsimp only at h
  split at h <;> cases h
  decide

theorem writePoint (e : Enc F K A) (p : A) : Avoids (W.writePoint e p : W F Unit) :=
  (commonPointW e p).bind fun _ => fun _ _ h => by cases h

theorem writeScalar (e : Enc F K A) (p : F) : Avoids (W.writeScalar e p : W F Unit) :=
  (commonScalarW e p).bind fun _ => fun _ _ h => by cases h

theorem readExact : Avoids (R.readExact : R F Bytes) := by
  intro s err h
  unfold R.readExact at h
  split_ifs at h <;> cases h
  decide

theorem readPoint (e : Enc F K A) : Avoids (R.readPoint e : R F A) :=
  readExact.bind fun _ => (fails (by decide) (by decide) _).bind fun _ =>
    (commonPointR e _).bind fun _ => pure _

theorem readScalar (e : Enc F K A) : Avoids (R.readScalar e : R F F) :=
  readExact.bind fun _ => (fails (by decide) (by decide) _).bind fun _ =>
    (commonScalarR e _).bind fun _ => pure _

theorem readNPoints (e : Enc F K A) (n : ℕ) : Avoids (R.readNPoints e n : R F (List A)) :=
  mapM (fun _ => readPoint e) _

theorem readNScalars (e : Enc F K A) (n : ℕ) : Avoids (R.readNScalars e n : R F (List F)) :=
  mapM (fun _ => readScalar e) _

theorem readPermutation (e : Enc F K A) (l : List A) : Avoids (Protocol.readPermutation e l) := by
  induction l with
  | nil => exact pure _
  | cons _ l ih =>
    unfold Protocol.readPermutation
    exact (readScalar e).bind fun _ => (readScalar e).bind fun _ =>
      (ite ((readScalar e).bind fun _ => pure _) (pure _)).bind fun _ => ih.bind fun _ => pure _

theorem readLookup (e : Enc F K A) : Avoids (Protocol.readLookup e) :=
  (readScalar e).bind fun _ => (readScalar e).bind fun _ => (readScalar e).bind fun _ =>
    (readScalar e).bind fun _ => (readScalar e).bind fun _ => pure _

theorem evalPermutation (e : Enc F K A) (d : Domain F) (bf : ℕ) (x : F) (l : List (List F)) :
    Avoids (Protocol.evalPermutation e d bf x l) := by
  induction l with
  | nil => exact pure _
  | cons _ l ih =>
    unfold Protocol.evalPermutation
    exact (writeScalar e _).bind fun _ => (writeScalar e _).bind fun _ =>
      (ite (writeScalar e _) (pure _)).bind fun _ => ih

theorem evalLookup (e : Enc F K A) (d : Domain F) (x : F) (q : List F × List F × List F) :
    Avoids (Protocol.evalLookup e d x q) :=
  (writeScalar e _).bind fun _ => (writeScalar e _).bind fun _ => (writeScalar e _).bind fun _ =>
    (writeScalar e _).bind fun _ => writeScalar e _

theorem evalQueries (e : Enc F K A) (d : Domain F) (x : F) (qs : List (ℕ × ℤ)) (ps : List (List F)) :
    Avoids (Protocol.evalQueries e d x qs ps) :=
  (panics _).bind fun _ => (mapM (fun _ => writeScalar e _) _).bind fun _ => pure _

theorem commitRowsW (threads : ℕ) (e : Enc F K A) (pr : Params A) (d : Domain F) (rng : Rng F)
    (z : List F) (ctx : List (List F)) : Avoids (Protocol.commitRowsW threads e pr d rng z ctx) :=
  (panics _).bind fun _ => (panics _).bind fun _ => (writePoint e _).bind fun _ => pure _

variable [LinearOrder F]

theorem proverProducts (threads : ℕ) (e : Enc F K A) (pr : Params A) (d : Domain F) (cs : Cs F)
    (delta : F) (rng : Rng F) (pk : Pk F) (ws : List (Circuit F)) (P : Prep F) :
    Avoids (Protocol.proverProducts threads e pr d cs delta rng pk ws P) := by
  unfold Protocol.proverProducts
  refine (squeezeW e).bind fun _ => (mapSW (fun _ _ => mapSW (fun _ _ => ?_) _ _) _ _).bind fun _ =>
    (squeezeW e).bind fun _ => (squeezeW e).bind fun _ => (mapSW (fun _ _ => ?_) _ _).bind fun _ =>
    (mapSW (fun _ _ => mapSW (fun _ _ => ?_) _ _) _ _).bind fun _ => pure _
  · exact (fails (by decide) (by decide) _).bind fun _ => (panics _).bind fun _ =>
      (panics _).bind fun _ => (writePoint e _).bind fun _ => (writePoint e _).bind fun _ => pure _
  · exact (panics _).bind fun _ => mapSW (fun _ _ => commitRowsW _ _ _ _ _ _ _) _ _
  · exact (panics _).bind fun _ => commitRowsW _ _ _ _ _ _ _

theorem proverQuotient (threads : ℕ) (e : Enc F K A) (pr : Params A) (d : Domain F) (cs : Cs F)
    (delta : F) (rng : Rng F) (P : Prep F) (theta beta gamma : F)
    (permuted : List (List (Permuted F × F × F)))
    (products lookupProducts : List (List (Product F × F))) (ctx : List (List F)) :
    Avoids (Protocol.proverQuotient threads e pr d cs delta rng P theta beta gamma permuted products
      lookupProducts ctx) :=
  (panics _).bind fun _ => (writePoint e _).bind fun _ => (squeezeW e).bind fun _ =>
    (panics _).bind fun _ => (panics _).bind fun _ => (panics _).bind fun _ =>
    (mapM (fun _ => writePoint e _) _).bind fun _ => (squeezeW e).bind fun _ => pure _

theorem proverOpen [LinearOrder K] (threads : ℕ) (e : Enc F K A) (pr : Params A) (d : Domain F)
    (cs : Cs F) (rng : Rng F) (pk : Pk F) (os : List (Opens (List F × F))) (x : F)
    (random : List F) (pieces : List (List F)) :
    Avoids (Protocol.proverOpen threads e pr d cs rng pk os x random pieces) :=
  (mapM (fun _ => evalQueries _ _ _ _ _) _).bind fun _ =>
    (mapM (fun _ => evalQueries _ _ _ _ _) _).bind fun _ => (evalQueries _ _ _ _ _).bind fun _ =>
    (panics _).bind fun _ => (writeScalar e _).bind fun _ =>
    (mapM (fun _ => writeScalar e _) _).bind fun _ =>
    (mapM (fun _ => evalPermutation _ _ _ _ _) _).bind fun _ =>
    (mapM (fun _ => mapM (fun _ => evalLookup _ _ _ _) _) _).bind fun _ =>
    mapErr (by decide) (by decide) _

theorem verifierProducts (e : Enc F K A) (cs : Cs F) (n : ℕ) :
    Avoids (Protocol.verifierProducts e cs n) :=
  (squeezeR e).bind fun _ => (mapM (fun _ => mapM (fun _ => (readPoint e).bind fun _ =>
      (readPoint e).bind fun _ => pure _) _) _).bind fun _ =>
    (squeezeR e).bind fun _ => (squeezeR e).bind fun _ =>
    (mapM (fun _ => mapM (fun _ => readPoint e) _) _).bind fun _ =>
    (mapM (fun _ => mapM (fun _ => (readPoint e).bind fun _ => pure _) _) _).bind fun _ => pure _

theorem verifierQuotient (e : Enc F K A) (d : Domain F) : Avoids (Protocol.verifierQuotient e d) :=
  (readPoint e).bind fun _ => (squeezeR e).bind fun _ => (readNPoints e _).bind fun _ =>
    (squeezeR e).bind fun _ => pure _

theorem verifierOpen [LinearOrder K] (e : Enc F K A) (pr : Params A) (d : Domain F) (cs : Cs F)
    (delta : F) (vk : Vk F A) (r : Read F A) (msm : MSM F K) :
    Avoids (Protocol.verifierOpen e pr d cs delta vk r msm) :=
  (mapM (fun _ => readNScalars e _) _).bind fun _ => (mapM (fun _ => readNScalars e _) _).bind fun _ =>
    (readNScalars e _).bind fun _ => (readScalar e).bind fun _ =>
    (mapM (fun _ => readScalar e) _).bind fun _ => (mapM (fun _ => readPermutation e _) _).bind fun _ =>
    (mapM (fun _ => mapM (fun _ => readLookup e) _) _).bind fun _ =>
    (check (by decide) (by decide) _).bind fun _ => (panics _).bind fun _ => (panics _).bind fun _ =>
    (panics _).bind fun _ => mapErr (by decide) (by decide) _

end Avoids

theorem check_err {c : Prop} [Decidable c] {err er : Err} {s : σ}
    (h : (check c err : StateT σ (Except Err) Unit) s = .error er) : ¬ c ∧ er = err := by
  unfold check at h
  split_ifs at h with hc
  · cases h
  · cases h; exact ⟨hc, rfl⟩

theorem check_false {c : Prop} [Decidable c] (err : Err) (h : ¬ c) (s : σ) :
    (check c err : StateT σ (Except Err) Unit) s = .error err := by
  unfold check; rw [if_neg h]; rfl

theorem bind_of_err {w : StateT σ (Except Err) α} {f : α → StateT σ (Except Err) β}
    {s : σ} {err : Err} (h : w s = .error err) : (w >>= f) s = .error err := by
  change (w s).bind _ = _
  rw [h]; rfl

theorem mapM_err {f : ι → StateT σ (Except Err) α} {l : List ι} {s : σ} {err : Err}
    (h : l.mapM f s = .error err) : ∃ i ∈ l, ∃ s', f i s' = .error err := by
  induction l generalizing s with
  | nil => cases h
  | cons i l ih =>
    rw [List.mapM_cons] at h
    rcases bind_err h with h | ⟨a, s', -, h⟩
    · exact ⟨i, by simp, s, h⟩
    · rcases bind_err h with h | ⟨_, _, -, h⟩
      · obtain ⟨j, hj, h⟩ := ih h
        exact ⟨j, by simp [hj], h⟩
      · cases h

/-- A loop over elements of which a bad one fails with `err`, while a good one may fail with an
`io` error under the condition `P`. -/
theorem mapM_bad {f : ι → StateT σ (Except Err) α} {l : List ι} {err : Err} {good : ι → Prop}
    {P : Prop} (hf : ∀ i ∈ l, ∀ s, (good i ∧ ∃ a s', f i s = .ok (a, s')) ∨
      (¬ good i ∧ f i s = .error err) ∨ (P ∧ f i s = .error .io)) (hb : ∃ i ∈ l, ¬ good i) (s : σ) :
    l.mapM f s = .error err ∨ (P ∧ l.mapM f s = .error .io) := by
  induction l generalizing s with
  | nil => simp at hb
  | cons i l ih =>
    rw [List.mapM_cons]
    rcases hf i (by simp) s with ⟨hg, a, s', h⟩ | ⟨-, h⟩ | ⟨hP, h⟩
    · obtain ⟨j, hj, hb⟩ := hb
      have hj : j ∈ l := by
        rcases List.mem_cons.1 hj with rfl | hj
        · exact absurd hg hb
        · exact hj
      rw [bind_of_ok h]
      rcases ih (fun k hk => hf k (by simp [hk])) ⟨j, hj, hb⟩ s' with h | ⟨hP, h⟩
      · exact Or.inl (bind_of_err h)
      · exact Or.inr ⟨hP, bind_of_err h⟩
    · exact Or.inl (bind_of_err h)
    · exact Or.inr ⟨hP, bind_of_err h⟩

/-- A loop without failures. -/
theorem mapM_good {f : ι → StateT σ (Except Err) α} {l : List ι} {P : Prop}
    (hf : ∀ i ∈ l, ∀ s, (∃ a s', f i s = .ok (a, s')) ∨ (P ∧ f i s = .error .io)) (s : σ) :
    (∃ a s', l.mapM f s = .ok (a, s')) ∨ (P ∧ l.mapM f s = .error .io) := by
  induction l generalizing s with
  | nil => exact Or.inl ⟨[], s, rfl⟩
  | cons i l ih =>
    rw [List.mapM_cons]
    rcases hf i (by simp) s with ⟨a, s', h⟩ | ⟨hP, h⟩
    · rw [bind_of_ok h]
      rcases ih (fun k hk => hf k (by simp [hk])) s' with ⟨as, s'', h⟩ | ⟨hP, h⟩
      · exact Or.inl ⟨a :: as, s'', by rw [bind_of_ok h]; rfl⟩
      · exact Or.inr ⟨hP, bind_of_err h⟩
    · exact Or.inr ⟨hP, bind_of_err h⟩

theorem padInstance_err {n bf : ℕ} {v : List F} {s : σ} {err : Err}
    (h : (padInstance n bf v : StateT σ (Except Err) (List F)) s = .error err) :
    (err = .panic ∧ ¬ bf + 1 ≤ n) ∨ (err = .instanceTooLarge ∧ n - (bf + 1) < v.length) := by
  unfold padInstance at h
  rcases bind_err h with h | ⟨_, _, -, h⟩
  · obtain ⟨h1, h2⟩ := check_err h; exact Or.inl ⟨h2, h1⟩
  · rcases bind_err h with h | ⟨_, _, -, h⟩
    · obtain ⟨h1, h2⟩ := check_err h; exact Or.inr ⟨h2, by omega⟩
    · cases h

theorem padInstance_large {n bf : ℕ} {v : List F} (hn : bf + 1 ≤ n) (h : n - (bf + 1) < v.length)
    (s : σ) : (padInstance n bf v : StateT σ (Except Err) (List F)) s = .error .instanceTooLarge := by
  unfold padInstance
  rw [check_true _ hn, pure_bind]
  exact bind_of_err (check_false _ (by omega) s)

theorem commitLagrange_some {pr : Params A} (hpr : Commitment.Sized pr) (v : List F) (b : F)
    (hv : v.length = pr.n) : ∃ C, pr.commitLagrange v b = some C := by
  unfold Params.commitLagrange
  rw [Verif.Commitment.multiexp_append, if_pos (by rw [hv, hpr.gl_len])]
  exact ⟨_, rfl⟩

section
variable [LinearOrder F] [LinearOrder K] [DecidableEq A]

/-- **C48**, the verifier: `verify_proof` answers `InvalidInstances` exactly when an instance has
the wrong number of columns, and otherwise `InstanceTooLarge` exactly when a column has more values
than there are usable rows. -/
theorem verify_instances (e : Enc F K A) (pr : Params A) (hpr : Commitment.Sized pr) (d : Domain F)
    (cs : Cs F) (hbf : cs.blindingFactors + 1 ≤ pr.n) (delta : F) (vk : Vk F A)
    (instances : List (List (List F))) (st : RState F) :
    (verifySingle e pr d cs delta vk instances st = .error .invalidInstances ↔
      ∃ i ∈ instances, i.length ≠ cs.numInstance) ∧
    (verifySingle e pr d cs delta vk instances st = .error .instanceTooLarge ↔
      (∀ i ∈ instances, i.length = cs.numInstance) ∧
        ∃ i ∈ instances, ∃ v ∈ i, pr.n - (cs.blindingFactors + 1) < v.length) := by
  -- where such an error can come from
  have hinv : ∀ err, verifySingle e pr d cs delta vk instances st = .error err →
      (err = .invalidInstances ∨ err = .instanceTooLarge) →
      (err = .invalidInstances ∧ ∃ i ∈ instances, i.length ≠ cs.numInstance) ∨
      (err = .instanceTooLarge ∧ (∀ i ∈ instances, i.length = cs.numInstance) ∧
        ∃ i ∈ instances, ∃ v ∈ i, pr.n - (cs.blindingFactors + 1) < v.length) := by
    intro err h herr
    have hno : ∀ {α β : Type} {w : StateT α (Except Err) β} {s : α}, Avoids w → ¬ w s = .error err := by
      intro α β w s hw hs
      obtain ⟨h1, h2⟩ := hw s err hs
      rcases herr with rfl | rfl <;> contradiction
    unfold verifySingle verifyGuard verifierRead verifierColumns at h
    simp only [bind_assoc] at h
    rcases bind_err h with h | ⟨_, _, hok, h⟩
    · obtain ⟨h1, rfl⟩ := check_err h
      push Not at h1
      exact Or.inl ⟨rfl, h1⟩
    obtain ⟨hcount, -⟩ := check_ok hok
    rcases bind_err h with h | ⟨inst, _, -, h⟩
    · obtain ⟨i, hi, s', h⟩ := mapM_err h
      obtain ⟨v, hv, s'', h⟩ := mapM_err h
      rcases bind_err h with h | ⟨_, _, -, h⟩
      · rcases padInstance_err h with ⟨rfl, -⟩ | ⟨rfl, h'⟩
        · rcases herr with h | h <;> cases h
        · exact Or.inr ⟨rfl, hcount, i, hi, v, hv, h'⟩
      · exact absurd h (hno (Avoids.panics _))
    refine absurd h (hno ?_)
    exact (Avoids.commonScalarR e _).bind fun _ =>
      (Avoids.mapM (fun _ => Avoids.mapM (fun _ => Avoids.commonPointR e _) _) _).bind fun _ =>
      (Avoids.mapM (fun _ => Avoids.readNPoints e _) _).bind fun _ =>
      (Avoids.pure _).bind fun _ =>
      (Avoids.verifierProducts e cs _).bind fun _ => (Avoids.verifierQuotient e d).bind fun _ =>
      (Avoids.pure _).bind fun _ =>
      (Avoids.verifierOpen e pr d cs delta vk _ _).bind fun _ => (Avoids.panics _).bind fun _ =>
      (Avoids.panics _).bind fun _ => Avoids.check (by decide) (by decide) _
  constructor
  · constructor
    · intro h
      rcases hinv _ h (Or.inl rfl) with ⟨-, h⟩ | ⟨h, -⟩
      · exact h
      · cases h
    · intro h
      unfold verifySingle verifyGuard verifierRead verifierColumns
      simp only [bind_assoc]
      exact bind_of_err (check_false _ (by push Not; exact h) st)
  · constructor
    · intro h
      rcases hinv _ h (Or.inr rfl) with ⟨h, -⟩ | ⟨-, h⟩
      · cases h
      · exact h
    · rintro ⟨h1, i, hi, v, hv, h2⟩
      unfold verifySingle verifyGuard verifierRead verifierColumns
      simp only [bind_assoc]
      rw [check_true _ h1, pure_bind]
      refine bind_of_err ?_
      have hcol : ∀ v : List F, ∀ s : RState F,
          (v.length ≤ pr.n - (cs.blindingFactors + 1) ∧ ∃ a s', (do
            let v ← padInstance pr.n cs.blindingFactors v
            panics (pr.commitLagrange v 1) : R F A) s = .ok (a, s')) ∨
          (¬ v.length ≤ pr.n - (cs.blindingFactors + 1) ∧ (do
            let v ← padInstance pr.n cs.blindingFactors v
            panics (pr.commitLagrange v 1) : R F A) s = .error .instanceTooLarge) ∨
          (False ∧ (do
            let v ← padInstance pr.n cs.blindingFactors v
            panics (pr.commitLagrange v 1) : R F A) s = .error .io) := by
        intro v s
        by_cases h : v.length ≤ pr.n - (cs.blindingFactors + 1)
        · left
          obtain ⟨C, hC⟩ := commitLagrange_some hpr (pad pr.n v) 1 (pad_length (by omega))
          rw [padInstance_eq _ _ _ hbf h, pure_bind, hC]
          exact ⟨h, C, s, rfl⟩
        · right; left
          exact ⟨h, bind_of_err (padInstance_large hbf (by omega) s)⟩
      have hrow : ∀ i : List (List F), ∀ s : RState F,
          ((∀ v ∈ i, v.length ≤ pr.n - (cs.blindingFactors + 1)) ∧ ∃ a s', (i.mapM fun v => (do
            let v ← padInstance pr.n cs.blindingFactors v
            panics (pr.commitLagrange v 1) : R F A)) s = .ok (a, s')) ∨
          (¬ (∀ v ∈ i, v.length ≤ pr.n - (cs.blindingFactors + 1)) ∧ (i.mapM fun v => (do
            let v ← padInstance pr.n cs.blindingFactors v
            panics (pr.commitLagrange v 1) : R F A)) s = .error .instanceTooLarge) ∨
          (False ∧ (i.mapM fun v => (do
            let v ← padInstance pr.n cs.blindingFactors v
            panics (pr.commitLagrange v 1) : R F A)) s = .error .io) := by
        intro i s
        by_cases hg : ∀ v ∈ i, v.length ≤ pr.n - (cs.blindingFactors + 1)
        · rcases mapM_good (l := i) (P := False) (fun v hv s => (by
            rcases hcol v s with ⟨-, h⟩ | ⟨h, -⟩ | ⟨h, -⟩
            · exact Or.inl h
            · exact absurd (hg v hv) h
            · exact h.elim)) s with h | ⟨h, -⟩
          · exact Or.inl ⟨hg, h⟩
          · exact h.elim
        · right; left
          refine ⟨hg, ?_⟩
          push Not at hg
          obtain ⟨v, hv, hg⟩ := hg
          rcases mapM_bad (l := i) (P := False)
            (good := fun v : List F => v.length ≤ pr.n - (cs.blindingFactors + 1))
            (err := .instanceTooLarge) (fun v _ s => hcol v s) ⟨v, hv, by omega⟩ s with h | ⟨h, -⟩
          · exact h
          · exact h.elim
      rcases mapM_bad (good := fun i : List (List F) =>
          ∀ v ∈ i, v.length ≤ pr.n - (cs.blindingFactors + 1)) (P := False)
        (err := .instanceTooLarge) (l := instances) (fun i _ s => hrow i s)
        ⟨i, hi, fun h => by have := h v hv; omega⟩ st with h | ⟨h, -⟩
      · exact h
      · exact h.elim

omit [DecidableEq A] in
/-- **C48**, the prover: the same conditions, and `InvalidInstances` also when there are not as
many instances as circuits.  A column that is too long may be preceded by an instance that commits
to the identity, which is an error of the transcript. -/
theorem prove_instances (threads : ℕ) (e : Enc F K A) (pr : Params A) (hpr : Commitment.Sized pr)
    (d : Domain F) (hn : d.n = pr.n) (cs : Cs F) (hbf : cs.blindingFactors + 1 ≤ pr.n)
    (delta repr : F) (rng : Rng F) (pk : Pk F) (circuits instances : List (List (List F)))
    (st : WState F) :
    (createProof threads e pr d cs delta repr rng pk circuits instances st
        = .error .invalidInstances ↔
      circuits.length ≠ instances.length ∨ ∃ i ∈ instances, i.length ≠ cs.numInstance) ∧
    (createProof threads e pr d cs delta repr rng pk circuits instances st
        = .error .instanceTooLarge →
      (circuits.length = instances.length ∧ ∀ i ∈ instances, i.length = cs.numInstance) ∧
        ∃ i ∈ instances, ∃ v ∈ i, pr.n - (cs.blindingFactors + 1) < v.length) ∧
    ((circuits.length = instances.length ∧ ∀ i ∈ instances, i.length = cs.numInstance) →
      (∃ i ∈ instances, ∃ v ∈ i, pr.n - (cs.blindingFactors + 1) < v.length) →
      createProof threads e pr d cs delta repr rng pk circuits instances st
        = .error .instanceTooLarge ∨
      (createProof threads e pr d cs delta repr rng pk circuits instances st = .error .io ∧
        ∃ i ∈ instances, ∃ v ∈ i, ∃ C, pr.commitLagrange (pad pr.n v) (1 : F) = some C ∧
          e.coords C = none)) := by
  have hinv : ∀ err, createProof threads e pr d cs delta repr rng pk circuits instances st
        = .error err →
      (err = .invalidInstances ∨ err = .instanceTooLarge) →
      (err = .invalidInstances ∧
        (circuits.length ≠ instances.length ∨ ∃ i ∈ instances, i.length ≠ cs.numInstance)) ∨
      (err = .instanceTooLarge ∧
        (circuits.length = instances.length ∧ ∀ i ∈ instances, i.length = cs.numInstance) ∧
        ∃ i ∈ instances, ∃ v ∈ i, pr.n - (cs.blindingFactors + 1) < v.length) := by
    intro err h herr
    have hno : ∀ {α β : Type} {w : StateT α (Except Err) β} {s : α}, Avoids w → ¬ w s = .error err := by
      intro α β w s hw hs
      obtain ⟨h1, h2⟩ := hw s err hs
      rcases herr with rfl | rfl <;> contradiction
    unfold createProof proverColumns at h
    simp only [bind_assoc] at h
    rcases bind_err h with h | ⟨_, _, hok, h⟩
    · obtain ⟨h1, rfl⟩ := check_err h
      exact Or.inl ⟨rfl, Or.inl h1⟩
    obtain ⟨hlen, -⟩ := check_ok hok
    rcases bind_err h with h | ⟨_, _, hok, h⟩
    · obtain ⟨h1, rfl⟩ := check_err h
      push Not at h1
      exact Or.inl ⟨rfl, Or.inr h1⟩
    obtain ⟨hcount, -⟩ := check_ok hok
    rcases bind_err h with h | ⟨_, _, -, h⟩
    · cases h
    rcases bind_err h with h | ⟨inst, _, -, h⟩
    · obtain ⟨i, hi, s', h⟩ := mapM_err h
      unfold proverInstance at h
      rcases bind_err h with h | ⟨_, _, -, h⟩
      · obtain ⟨v, hv, s'', h⟩ := mapM_err h
        rcases bind_err h with h | ⟨_, _, -, h⟩
        · obtain ⟨-, rfl⟩ := check_err h
          rcases herr with h | h <;> cases h
        · rcases padInstance_err h with ⟨rfl, -⟩ | ⟨rfl, h'⟩
          · rcases herr with h | h <;> cases h
          · exact Or.inr ⟨rfl, ⟨hlen, hcount⟩, i, hi, v, hv, hn ▸ h'⟩
      · refine absurd h (hno ?_)
        exact (Avoids.panics _).bind fun _ =>
          (Avoids.mapM (fun _ => Avoids.commonPointW e _) _).bind fun _ => Avoids.pure _
    refine absurd h (hno ?_)
    exact (Avoids.mapM (fun _ => (Avoids.check (by decide) (by decide) _).bind fun _ =>
        (Avoids.panics _).bind fun _ => (Avoids.mapM (fun _ => Avoids.writePoint e _) _).bind fun _ =>
        Avoids.pure _) _).bind fun _ => (Avoids.pure _).bind fun _ => (Avoids.panics _).bind fun _ =>
      (Avoids.proverProducts _ _ _ _ _ _ _ _ _ _).bind fun _ =>
      (Avoids.proverQuotient _ _ _ _ _ _ _ _ _ _ _ _ _ _ _).bind fun _ =>
      Avoids.proverOpen _ _ _ _ _ _ _ _ _ _ _
  refine ⟨⟨fun h => ?_, ?_⟩, fun h => ?_, ?_⟩
  · rcases hinv _ h (Or.inl rfl) with ⟨-, h⟩ | ⟨h, -⟩
    · exact h
    · cases h
  · intro h
    unfold createProof proverColumns
    simp only [bind_assoc]
    by_cases hlen : circuits.length = instances.length
    · rw [check_true _ hlen, pure_bind]
      refine bind_of_err (check_false _ ?_ st)
      rcases h with h | h
      · exact absurd hlen h
      · push Not; exact h
    · exact bind_of_err (check_false _ hlen st)
  · rcases hinv _ h (Or.inr rfl) with ⟨h, -⟩ | ⟨-, h⟩
    · cases h
    · exact h
  · rintro ⟨hlen, hcount⟩ ⟨i, hi, v, hv, hlarge⟩
    unfold createProof proverColumns
    simp only [bind_assoc]
    rw [check_true _ hlen, pure_bind, check_true _ hcount, pure_bind]
    rw [bind_of_ok (w := W.commonScalar e repr) (a := ())
      (s' := { st with absorbed := st.absorbed ++ [prefixScalar] ++ e.scalarRepr repr }) rfl]
    generalize ({ st with absorbed := st.absorbed ++ [prefixScalar] ++ e.scalarRepr repr } :
      WState F) = st₁
    have hinst : ∀ i ∈ instances, ∀ s : WState F,
        ((∀ v ∈ i, v.length ≤ pr.n - (cs.blindingFactors + 1)) ∧ ∃ a s',
          proverInstance e pr d cs i s = .ok (a, s')) ∨
        (¬ (∀ v ∈ i, v.length ≤ pr.n - (cs.blindingFactors + 1)) ∧
          proverInstance e pr d cs i s = .error .instanceTooLarge) ∨
        ((∃ i ∈ instances, ∃ v ∈ i, ∃ C, pr.commitLagrange (pad pr.n v) (1 : F) = some C ∧
          e.coords C = none) ∧ proverInstance e pr d cs i s = .error .io) := by
      intro i hi s
      unfold proverInstance
      rw [hn]
      by_cases hg : ∀ v ∈ i, v.length ≤ pr.n - (cs.blindingFactors + 1)
      · rw [mapM_eq_pure i (pad pr.n) fun v hv => by
          rw [check_true _ rfl, pure_bind]
          exact padInstance_eq _ _ _ hbf (hg v hv)]
        rw [pure_bind]
        have hsome : ∀ w ∈ i.map (pad pr.n), pr.commitLagrange w (1 : F)
            = some ((pr.commitLagrange w (1 : F)).getD 0) := by
          intro w hw
          obtain ⟨v, hv, rfl⟩ := List.mem_map.1 hw
          obtain ⟨C, hC⟩ := commitLagrange_some hpr (pad pr.n v) (1 : F)
            (pad_length (by have := hg v hv; omega))
          rw [hC]; rfl
        rw [mapM_some _ _ hsome]
        change _ ∨ _
        rw [show (panics (some ((i.map (pad pr.n)).map fun w =>
          (pr.commitLagrange w (1 : F)).getD 0)) : W F (List A)) = pure _ from rfl, pure_bind]
        rcases mapM_good (f := fun c => W.commonPoint (F := F) e c)
          (l := (i.map (pad pr.n)).map fun w => (pr.commitLagrange w (1 : F)).getD 0)
          (P := ∃ i ∈ instances, ∃ v ∈ i, ∃ C, pr.commitLagrange (pad pr.n v) (1 : F) = some C ∧
            e.coords C = none) (fun C hC s => (by
              obtain ⟨w, hw, rfl⟩ := List.mem_map.1 hC
              obtain ⟨v, hv, rfl⟩ := List.mem_map.1 hw
              rcases hc : e.coords ((pr.commitLagrange (pad pr.n v) (1 : F)).getD 0) with _ | ⟨x, y⟩
              · right
                exact ⟨⟨i, hi, v, hv, _, hsome _ hw, hc⟩, by unfold W.commonPoint; rw [hc]⟩
              · left
                unfold W.commonPoint
                rw [hc]
                exact ⟨_, _, rfl⟩)) s with ⟨a, s', h⟩ | ⟨hP, h⟩
        · left
          rw [bind_of_ok h]
          exact ⟨hg, _, _, rfl⟩
        · right; right
          exact ⟨hP, bind_of_err h⟩
      · right; left
        refine ⟨hg, bind_of_err ?_⟩
        push Not at hg
        obtain ⟨v, hv, hg⟩ := hg
        rcases mapM_bad (l := i) (P := False)
          (f := fun v => (do check (pr.n = pr.n) .panic; padInstance pr.n cs.blindingFactors v :
            W F (List F)))
          (good := fun v : List F => v.length ≤ pr.n - (cs.blindingFactors + 1))
          (err := .instanceTooLarge) (fun v _ s => (by
            rw [check_true _ rfl, pure_bind]
            by_cases h : v.length ≤ pr.n - (cs.blindingFactors + 1)
            · rw [padInstance_eq _ _ _ hbf h]
              exact Or.inl ⟨h, _, _, rfl⟩
            · exact Or.inr (Or.inl ⟨h, padInstance_large hbf (by omega) s⟩))) ⟨v, hv, by omega⟩ s
          with h | ⟨h, -⟩
        · exact h
        · exact h.elim
    rcases mapM_bad hinst ⟨i, hi, fun h => by have := h v hv; omega⟩ st₁ with h | ⟨hP, h⟩
    · exact Or.inl (bind_of_err h)
    · exact Or.inr ⟨bind_of_err h, hP⟩

end

/-! ## A concrete case: two usable rows, three values -/

section Example

open Verif.Toy Verif.Plonk

def exCsInst : Cs G := { exCs with numInstance := 1 }

example (d : Domain G) (vk : Vk G G) (input : Bytes) :
    ∃ pr, Commitment.Params.new 2 consts97 exHash 3 = some pr ∧
      verifySingle (enc sumHash uniform) pr d exCsInst 5 vk [[[1, 2, 3]]] (R.init input)
        = .error .instanceTooLarge ∧
      verifySingle (enc sumHash uniform) pr d exCsInst 5 vk [[[1], [2]]] (R.init input)
        = .error .invalidInstances := by
  obtain ⟨pr, h1, h2, h3⟩ := Verif.Commitment.new_sized 2 (by decide) consts97 consts97_valid exHash 3
    (by decide) (by decide)
  have hn : pr.n = 8 := by rw [h2.n_eq, h3]; rfl
  have hb : exCsInst.blindingFactors = 5 := by decide
  refine ⟨pr, h1, ?_, ?_⟩
  · refine ((verify_instances _ pr h2 d exCsInst (by rw [hn, hb]; decide) 5 vk _ _).2).2 ?_
    rw [hn, hb]; decide
  · refine ((verify_instances _ pr h2 d exCsInst (by rw [hn, hb]; decide) 5 vk _ _).1).2 ?_
    decide

end Example

end Verif.Protocol
