import Verif.Transcript.Sim
import Mathlib.Data.Finset.Card
import Mathlib.Data.Set.Basic
import Mathlib.Data.List.GetD

/-!
# Verifiers against provers who choose what is read

The hash function of the transcript is a parameter: a verifier is a function of it.
`Doomed e N i S r Q`: run the verifier `r` after `i` challenges on whatever bytes and with whatever
hash.  Every point and scalar read may be anything, and with every point comes an annotation (the
representation an algebraic prover has to give; `S` is the set of annotations still possible).  Of
the values of the `j`-th challenge at most `N j` may be excluded, where the excluded set depends on
everything read and squeezed before only.  Then, if `r` succeeds, its result, the number of
challenges and the annotations still possible satisfy `Q`.

`Doomed.bad` turns this into a statement on runs: there are sets of bad challenges, one for every
beginning of a log of points, annotations, scalars and challenges, chosen before the hash function
is, such that every run of the verifier none of whose challenges is bad satisfies `Q`.
-/

namespace Verif.Sound

open Verif.Transcript

variable {F K A V α β γ : Type}

/-- The hash function of a transcript: `BLAKE2b-512` and the map from digests to scalars. -/
structure Hash (F : Type) where
  blake2b : Bytes → Bytes
  fromUniform : Bytes → F

/-- The same encodings with another hash. -/
def withHash (e : Enc F K A) (h : Hash F) : Enc F K A :=
  { e with blake2b := h.blake2b, fromUniform := h.fromUniform }

@[simp] theorem withHash_toCoords (e : Enc F K A) (h : Hash F) :
    (withHash e h).toCoords = e.toCoords := rfl

@[simp] theorem withHash_scalarRepr (e : Enc F K A) (h : Hash F) :
    (withHash e h).scalarRepr = e.scalarRepr := rfl

theorem withHash_self (e : Enc F K A) : withHash e ⟨e.blake2b, e.fromUniform⟩ = e := rfl

theorem withHash_valid [Field K] [AddCommGroup A] {e : Enc F K A} (he : e.Valid) (h : Hash F) :
    (withHash e h).Valid :=
  ⟨he.coords_valid, he.base_len, he.base_inj, he.scalar_len, he.scalar_iff, he.point_len,
    he.point_iff⟩

theorem mapErr_ok {err : Err} {r : R F α} {s : RState F} {x : α × RState F}
    (h : mapErr err r s = .ok x) : r s = .ok x := by
  unfold mapErr at h
  split at h
  · rename_i r' hr; rw [hr]; exact h
  · cases h
  · cases h

variable {e : Enc F K A}

/-! ## Logs -/

/-- The challenge the transcript squeezes after absorbing `s`. -/
def chal (e : Enc F K A) (s : Bytes) : F := e.fromUniform (e.blake2b (s ++ [prefixChallenge]))

/-- What `common_point` absorbs. -/
def ptBytes (e : Enc F K A) (p : A) : Bytes :=
  match e.coords p with
  | none => []
  | some (x, y) => [prefixPoint] ++ e.baseRepr x ++ e.baseRepr y

theorem commonPoint_ok {p : A} {s s' : RState F} {u : Unit}
    (h : R.commonPoint e p s = .ok (u, s')) :
    s' = ⟨s.absorbed ++ ptBytes e p, s.input, s.trace⟩ ∧ e.coords p ≠ none := by
  unfold R.commonPoint at h
  split at h
  · cases h
  · rename_i x y hc
    cases h
    refine ⟨?_, by rw [hc]; simp⟩
    unfold ptBytes
    rw [hc]
    simp

theorem fails_state {err : Err} {x : Option α} {a : α} {s s' : RState F}
    (h : (fails err x : R F α) s = .ok (a, s')) : s' = s := by
  cases x with
  | none => cases h
  | some b => cases h; rfl

theorem readPoint_ok {p : A} {s s' : RState F} (h : R.readPoint e s = .ok (p, s')) :
    ∃ inp, s' = ⟨s.absorbed ++ ptBytes e p, inp, s.trace⟩ ∧ e.coords p ≠ none := by
  unfold R.readPoint at h
  obtain ⟨bs, s₁, h1, h2⟩ := bind_ok h
  obtain ⟨q, s₂, h3, h4⟩ := bind_ok h2
  obtain ⟨_, s₃, h5, h6⟩ := bind_ok h4
  cases h6
  obtain ⟨rfl, hc⟩ := commonPoint_ok h5
  have e1 : s₂ = s₁ := fails_state h3
  have e2 : s₁.absorbed = s.absorbed ∧ s₁.trace = s.trace := by
    unfold R.readExact at h1
    split_ifs at h1
    cases h1; exact ⟨rfl, rfl⟩
  refine ⟨s₂.input, ?_, hc⟩
  rw [e1, e2.1, e2.2]

theorem readScalar_ok {x : F} {s s' : RState F} (h : R.readScalar e s = .ok (x, s')) :
    ∃ inp, s' = ⟨s.absorbed ++ ([prefixScalar] ++ e.scalarRepr x), inp, s.trace⟩ := by
  unfold R.readScalar at h
  obtain ⟨bs, s₁, h1, h2⟩ := bind_ok h
  obtain ⟨q, s₂, h3, h4⟩ := bind_ok h2
  obtain ⟨_, s₃, h5, h6⟩ := bind_ok h4
  cases h6
  cases h5
  have e1 : s₂ = s₁ := fails_state h3
  have e2 : s₁.absorbed = s.absorbed ∧ s₁.trace = s.trace := by
    unfold R.readExact at h1
    split_ifs at h1
    cases h1; exact ⟨rfl, rfl⟩
  refine ⟨s₂.input, ?_⟩
  rw [e1, e2.1, e2.2, List.append_assoc]

/-- An entry of the log of a run: a point with its annotation, a scalar, or a challenge. -/
inductive Item (F A V : Type)
  | point (p : A) (v : V)
  | scalar (x : F)
  | challenge (c : F)

/-- The number of challenges in a log. -/
def challenges : List (Item F A V) → ℕ
  | [] => 0
  | .challenge _ :: l => challenges l + 1
  | _ :: l => challenges l

/-- Between the absorbed bytes `s` and `s'` the entries `l` were absorbed, every challenge being
the one that the hash function gives, and every point annotated by `rep`. -/
inductive Logged (e : Enc F K A) (rep : A → V) : Bytes → List (Item F A V) → Bytes → Prop
  | nil {s : Bytes} : Logged e rep s [] s
  | point {s s' : Bytes} {p : A} {l : List (Item F A V)} (hp : e.coords p ≠ none)
      (h : Logged e rep (s ++ ptBytes e p) l s') : Logged e rep s (.point p (rep p) :: l) s'
  | scalar {s s' : Bytes} {x : F} {l : List (Item F A V)}
      (h : Logged e rep (s ++ ([prefixScalar] ++ e.scalarRepr x)) l s') :
      Logged e rep s (.scalar x :: l) s'
  | challenge {s s' : Bytes} {l : List (Item F A V)}
      (h : Logged e rep (s ++ [prefixChallenge]) l s') :
      Logged e rep s (.challenge (chal e s) :: l) s'

/-- No challenge of the log is in the set of bad challenges for what precedes it. -/
def Avoids (bad : List (Item F A V) → Finset F) (l : List (Item F A V)) : Prop :=
  ∀ l₁ c l₂, l = l₁ ++ .challenge c :: l₂ → c ∉ bad l₁

theorem Avoids.tail {bad : List (Item F A V) → Finset F} {a : Item F A V} {l : List (Item F A V)}
    (h : Avoids bad (a :: l)) : Avoids (fun t => bad (a :: t)) l := by
  intro l₁ c l₂ hl
  exact h (a :: l₁) c l₂ (by rw [hl]; rfl)

theorem Logged.prefix {rep : A → V} {s s' : Bytes} {l : List (Item F A V)}
    (h : Logged e rep s l s') : s <+: s' := by
  induction h with
  | nil => exact List.prefix_refl _
  | point _ _ ih => exact (List.prefix_append _ _).trans ih
  | scalar _ ih => exact (List.prefix_append _ _).trans ih
  | challenge _ ih => exact (List.prefix_append _ _).trans ih

/-- Every successful run of `r` has a log. -/
def Logs (V : Type) (e : Enc F K A) (r : R F α) : Prop :=
  ∀ (rep : A → V) (st : RState F) (a : α) (st' : RState F), r st = .ok (a, st') →
    ∃ l, Logged e rep st.absorbed l st'.absorbed

theorem Logged.append {rep : A → V} {s s' s'' : Bytes} {l l' : List (Item F A V)}
    (h : Logged e rep s l s') (h' : Logged e rep s' l' s'') : Logged e rep s (l ++ l') s'' := by
  induction h with
  | nil => exact h'
  | point hp _ ih => exact .point hp (ih h')
  | scalar _ ih => exact .scalar (ih h')
  | challenge _ ih => exact .challenge (ih h')

theorem Logs.pure (a : α) : Logs V e (Pure.pure a : R F α) := by
  intro rep st a st' h; cases h; exact ⟨[], .nil⟩

theorem Logs.bind {r : R F α} {f : α → R F β} (h : Logs V e r) (hf : ∀ a, Logs V e (f a)) :
    Logs V e (r >>= f) := by
  intro rep st b st' hr
  obtain ⟨a, s₁, h1, h2⟩ := bind_ok hr
  obtain ⟨l, hl⟩ := h rep _ _ _ h1
  obtain ⟨l', hl'⟩ := hf a rep _ _ _ h2
  exact ⟨_, hl.append hl'⟩

theorem Logs.throw (err : Err) : Logs V e (throw err : R F α) := by intro rep st a st' h; cases h

theorem Logs.panics (x : Option α) : Logs V e (panics x : R F α) := by
  cases x with
  | none => exact Logs.throw _
  | some a => exact Logs.pure a

theorem Logs.fails (err : Err) (x : Option α) : Logs V e (fails err x : R F α) := by
  cases x with
  | none => exact Logs.throw _
  | some a => exact Logs.pure a

theorem Logs.mapErr {err : Err} {r : R F α} (h : Logs V e r) : Logs V e (mapErr err r) :=
  fun rep st a st' hr => h rep st a st' (mapErr_ok hr)

theorem Logs.mapM {ι : Type} (l : List ι) (f : ι → R F α) (hf : ∀ i, Logs V e (f i)) :
    Logs V e (l.mapM f) := by
  induction l with
  | nil => exact Logs.pure _
  | cons i t ih =>
    rw [List.mapM_cons]
    exact (hf i).bind fun a => ih.bind fun b => Logs.pure _

theorem Logs.commonPoint (p : A) : Logs V e (R.commonPoint e p) := by
  intro rep st a st' h
  obtain ⟨rfl, hc⟩ := commonPoint_ok h
  exact ⟨_, .point hc .nil⟩

theorem Logs.commonScalar (x : F) : Logs V e (R.commonScalar e x) := by
  intro rep st a st' h
  cases h
  exact ⟨_, .scalar (x := x) (by rw [← List.append_assoc]; exact .nil)⟩

theorem Logs.readPoint : Logs V e (R.readPoint e) := by
  intro rep st a st' h
  obtain ⟨inp, rfl, hc⟩ := readPoint_ok h
  exact ⟨_, .point hc .nil⟩

theorem Logs.readScalar : Logs V e (R.readScalar e) := by
  intro rep st a st' h
  obtain ⟨inp, rfl⟩ := readScalar_ok h
  exact ⟨_, .scalar .nil⟩

theorem Logs.squeeze : Logs V e (R.squeeze e) := by
  intro rep st a st' h
  unfold R.squeeze at h
  dsimp only at h
  split at h
  · cases h
  · cases h
    exact ⟨_, .challenge .nil⟩

theorem Logs.readNPoints (n : ℕ) : Logs V e (R.readNPoints e n) :=
  Logs.mapM _ _ fun _ => Logs.readPoint

theorem Logs.readNScalars (n : ℕ) : Logs V e (R.readNScalars e n) :=
  Logs.mapM _ _ fun _ => Logs.readScalar

/-- The rules for other functions are added to this tactic. -/
syntax "logs_ext" : tactic

macro_rules | `(tactic| logs_ext) => `(tactic| fail)

/-- Proves that a computation made of the primitives has a log. -/
macro "logs" : tactic => `(tactic| (
  intros
  repeat' (first
    | assumption
    | logs_ext
    | exact Logs.pure _
    | exact Logs.throw _
    | exact Logs.panics _
    | exact Logs.fails _ _
    | exact Logs.commonPoint _
    | exact Logs.commonScalar _
    | exact Logs.readPoint
    | exact Logs.readScalar
    | exact Logs.squeeze
    | exact Logs.readNPoints _
    | exact Logs.readNScalars _
    | refine Logs.mapErr ?_
    | refine Logs.mapM _ _ fun _ => ?_
    | refine Logs.bind ?_ fun _ => ?_)))

/-! ## The game -/

/-- See the head of the file. -/
inductive Doomed (e : Enc F K A) (N : ℕ → ℕ) :
    ℕ → Set (A → V) → (Hash F → R F α) → (α → ℕ → Set (A → V) → Prop) → Prop
  | ret {i : ℕ} {S : Set (A → V)} {a : α} {Q : α → ℕ → Set (A → V) → Prop} (h : Q a i S) :
      Doomed e N i S (fun _ => Pure.pure a) Q
  | fail {i : ℕ} {S : Set (A → V)} {r : Hash F → R F α} {Q : α → ℕ → Set (A → V) → Prop}
      (h : ∀ hs s x, r hs s ≠ .ok x) : Doomed e N i S r Q
  | ref {i : ℕ} {S : Set (A → V)} {r r' : Hash F → R F α} {Q : α → ℕ → Set (A → V) → Prop}
      (h : ∀ hs s x, r hs s = .ok x → r' hs s = .ok x) (d : Doomed e N i S r' Q) :
      Doomed e N i S r Q
  | commonPoint {i : ℕ} {S : Set (A → V)} {p : A} {r : Hash F → R F α}
      {Q : α → ℕ → Set (A → V) → Prop} (d : Doomed e N i S r Q) :
      Doomed e N i S (fun h => R.commonPoint (withHash e h) p >>= fun _ => r h) Q
  | commonScalar {i : ℕ} {S : Set (A → V)} {x : F} {r : Hash F → R F α}
      {Q : α → ℕ → Set (A → V) → Prop} (d : Doomed e N i S r Q) :
      Doomed e N i S (fun h => R.commonScalar (withHash e h) x >>= fun _ => r h) Q
  | point {i : ℕ} {S : Set (A → V)} {f : A → Hash F → R F α} {Q : α → ℕ → Set (A → V) → Prop}
      (d : ∀ p v, (S ∩ {rep | rep p = v}).Nonempty → Doomed e N i (S ∩ {rep | rep p = v}) (f p) Q) :
      Doomed e N i S (fun h => R.readPoint (withHash e h) >>= fun p => f p h) Q
  | scalar {i : ℕ} {S : Set (A → V)} {f : F → Hash F → R F α} {Q : α → ℕ → Set (A → V) → Prop}
      (d : ∀ x, Doomed e N i S (f x) Q) :
      Doomed e N i S (fun h => R.readScalar (withHash e h) >>= fun x => f x h) Q
  | challenge {i : ℕ} {S : Set (A → V)} {f : F → Hash F → R F α} {Q : α → ℕ → Set (A → V) → Prop}
      (B : Finset F) (hB : B.card ≤ N i) (hl : ∀ c hs, Logs V (withHash e hs) (f c hs))
      (d : ∀ c ∉ B, Doomed e N (i + 1) S (f c) Q) :
      Doomed e N i S (fun h => R.squeeze (withHash e h) >>= fun c => f c h) Q

variable {N : ℕ → ℕ} {i : ℕ} {S : Set (A → V)}

theorem Doomed.bind {r : Hash F → R F α} {f : α → Hash F → R F β}
    {Q : α → ℕ → Set (A → V) → Prop} {Q' : β → ℕ → Set (A → V) → Prop}
    (h : Doomed e N i S r Q) (hf : ∀ a j S', Q a j S' → Doomed e N j S' (f a) Q')
    (hl : ∀ a hs, Logs V (withHash e hs) (f a hs) := by logs) :
    Doomed e N i S (fun hs => r hs >>= fun a => f a hs) Q' := by
  induction h with
  | @ret i S a Q h => simp only [pure_bind]; exact hf _ _ _ h
  | @fail i S r Q h =>
    refine .fail fun hs s x hr => ?_
    obtain ⟨a, s₁, h1, -⟩ := bind_ok (b := x.1) (s' := x.2) hr
    exact h _ _ _ h1
  | @ref i S r r' Q h _ ih =>
    refine .ref (fun hs s x hr => ?_) (ih hf)
    obtain ⟨a, s₁, h1, h2⟩ := bind_ok (b := x.1) (s' := x.2) hr
    exact (bind_run (h _ _ _ h1)).trans h2
  | commonPoint _ ih => simp only [bind_assoc]; exact .commonPoint (ih hf)
  | commonScalar _ ih => simp only [bind_assoc]; exact .commonScalar (ih hf)
  | @point i S g Q _ ih =>
    simp only [bind_assoc]
    exact .point (f := fun p hs => g p hs >>= fun a => f a hs) fun p v h => ih p v h hf
  | @scalar i S g Q _ ih =>
    simp only [bind_assoc]
    exact .scalar (f := fun p hs => g p hs >>= fun a => f a hs) fun p => ih p hf
  | @challenge i S g Q B hB hg _ ih =>
    simp only [bind_assoc]
    exact .challenge (f := fun p hs => g p hs >>= fun a => f a hs) B hB
      (fun c hs => (hg c hs).bind fun a => hl a hs) fun c hc => ih c hc hf

theorem Doomed.mono {r : Hash F → R F α} {Q Q' : α → ℕ → Set (A → V) → Prop}
    (h : Doomed e N i S r Q) (hQ : ∀ a j S', Q a j S' → Q' a j S') : Doomed e N i S r Q' := by
  induction h with
  | ret h => exact .ret (hQ _ _ _ h)
  | fail h => exact .fail h
  | ref h _ ih => exact .ref h (ih hQ)
  | commonPoint _ ih => exact .commonPoint (ih hQ)
  | commonScalar _ ih => exact .commonScalar (ih hQ)
  | point _ ih => exact .point fun p v h => ih p v h hQ
  | scalar _ ih => exact .scalar fun p => ih p hQ
  | challenge B hB hl _ ih => exact .challenge B hB hl fun c hc => ih c hc hQ

/-- Some annotations have been excluded, not all. -/
structure Narrows (S S' : Set (A → V)) : Prop where
  sub : S' ⊆ S
  ne : S.Nonempty → S'.Nonempty

theorem Narrows.refl (S : Set (A → V)) : Narrows S S := ⟨subset_rfl, id⟩

theorem Narrows.trans {S S' S'' : Set (A → V)} (h : Narrows S S') (h' : Narrows S' S'') :
    Narrows S S'' := ⟨h'.sub.trans h.sub, fun hn => h'.ne (h.ne hn)⟩

/-- The annotation of a point has been given. -/
structure Given (S S' : Set (A → V)) (p : A) (v : V) : Prop where
  sub : S' ⊆ S
  eq : ∀ rep ∈ S', rep p = v
  ne : S'.Nonempty

theorem Given.narrows {S S' : Set (A → V)} {p : A} {v : V} (h : Given S S' p v) : Narrows S S' :=
  ⟨h.sub, fun _ => h.ne⟩

theorem Doomed.readPoint : Doomed e N i S (fun h => R.readPoint (withHash e h))
    fun p j S' => j = i ∧ ∃ v, Given S S' p v := by
  have := Doomed.point (e := e) (N := N) (i := i) (S := S) (f := fun p _ => Pure.pure p)
    (Q := fun p j S' => j = i ∧ ∃ v, Given S S' p v)
    fun p v hne => .ret ⟨rfl, v, fun _ h => h.1, fun _ h => h.2, hne⟩
  simpa only [bind_pure] using this

theorem Doomed.readScalar : Doomed e N i S (fun h => R.readScalar (withHash e h))
    fun _ j S' => j = i ∧ S' = S := by
  have := Doomed.scalar (e := e) (N := N) (i := i) (S := S) (f := fun p _ => Pure.pure p)
    (Q := fun _ j S' => j = i ∧ S' = S) fun p => .ret ⟨rfl, rfl⟩
  simpa only [bind_pure] using this

theorem Doomed.squeeze (B : Finset F) (hB : B.card ≤ N i) :
    Doomed e N i S (fun h => R.squeeze (withHash e h))
      fun c j S' => c ∉ B ∧ j = i + 1 ∧ S' = S := by
  have := Doomed.challenge (e := e) (N := N) (i := i) (S := S) (f := fun p _ => Pure.pure p)
    (Q := fun c j S' => c ∉ B ∧ j = i + 1 ∧ S' = S) B hB
    (fun c hs => Logs.pure c) fun c hc => .ret ⟨hc, rfl, rfl⟩
  simpa only [bind_pure] using this

theorem Doomed.commonPoint' (p : A) : Doomed e N i S (fun h => R.commonPoint (withHash e h) p)
    fun _ j S' => j = i ∧ S' = S := by
  have := Doomed.commonPoint (e := e) (N := N) (i := i) (S := S) (p := p)
    (r := fun _ => Pure.pure ()) (Q := fun _ j S' => j = i ∧ S' = S) (.ret ⟨rfl, rfl⟩)
  exact .ref (fun hs s x hr => by rw [← bind_pure (R.commonPoint _ _)] at hr; exact hr) this

theorem Doomed.commonScalar' (x : F) : Doomed e N i S (fun h => R.commonScalar (withHash e h) x)
    fun _ j S' => j = i ∧ S' = S := by
  have := Doomed.commonScalar (e := e) (N := N) (i := i) (S := S) (x := x)
    (r := fun _ => Pure.pure ()) (Q := fun _ j S' => j = i ∧ S' = S) (.ret ⟨rfl, rfl⟩)
  exact .ref (fun hs s x hr => by rw [← bind_pure (R.commonScalar _ _)] at hr; exact hr) this

theorem Doomed.panics (x : Option α) :
    Doomed e N i S (fun _ => (panics x : R F α)) fun a j S' => x = some a ∧ j = i ∧ S' = S := by
  cases x with
  | none => exact .fail fun hs s x h => by cases h
  | some a => exact .ret ⟨rfl, rfl, rfl⟩

theorem Doomed.fails (err : Err) (x : Option α) :
    Doomed e N i S (fun _ => (fails err x : R F α))
      fun a j S' => x = some a ∧ j = i ∧ S' = S := by
  cases x with
  | none => exact .fail fun hs s x h => by cases h
  | some a => exact .ret ⟨rfl, rfl, rfl⟩

theorem Doomed.throw (err : Err) (Q : α → ℕ → Set (A → V) → Prop) :
    Doomed e N i S (fun _ => (throw err : R F α)) Q :=
  .fail fun hs s x h => by cases h

theorem Doomed.mapErr {err : Err} {r : Hash F → R F α} {Q : α → ℕ → Set (A → V) → Prop}
    (h : Doomed e N i S r Q) : Doomed e N i S (fun hs => mapErr err (r hs)) Q :=
  .ref (fun _ _ _ hr => mapErr_ok hr) h

theorem Doomed.mapM {ι : Type} (l : List ι) (f : ι → Hash F → R F α)
    (P : Set (A → V) → ι → α → Prop) (hP : ∀ S S' k a, S' ⊆ S → P S k a → P S' k a)
    (hf : ∀ k ∈ l, ∀ S', Narrows S S' →
      Doomed e N i S' (f k) fun a j S'' => P S'' k a ∧ j = i ∧ Narrows S' S'')
    (hl : ∀ k hs, Logs V (withHash e hs) (f k hs) := by logs) :
    Doomed e N i S (fun h => l.mapM fun k => f k h)
      fun as j S' => List.Forall₂ (P S') l as ∧ j = i ∧ Narrows S S' := by
  induction l generalizing S with
  | nil => exact .ret ⟨.nil, rfl, .refl _⟩
  | cons k l ih =>
    simp only [List.mapM_cons]
    refine (hf k (by simp) S (.refl _)).bind ?_
      fun a hs => (Logs.mapM l _ fun k => hl k hs).bind fun _ => Logs.pure _
    rintro a i S' ⟨ha, rfl, hS⟩
    refine Doomed.bind (ih fun k hk S'' h => hf k (by simp [hk]) S'' (hS.trans h)) ?_
    rintro as i S'' ⟨has, rfl, hS'⟩
    exact .ret ⟨.cons (hP _ _ _ _ hS'.sub ha) has, rfl, hS.trans hS'⟩

theorem Doomed.readNPoints (n : ℕ) :
    Doomed e N i S (fun h => R.readNPoints (withHash e h) n) fun as j S' => as.length = n ∧
      (∃ vs, vs.length = n ∧ ∀ rep ∈ S', as.map rep = vs) ∧ j = i ∧ Narrows S S' := by
  refine (Doomed.mapM (List.range n) (fun _ h => R.readPoint (withHash e h))
    (fun S' _ a => ∃ v, ∀ rep ∈ S', rep a = v) ?_ ?_).mono ?_
  · rintro S S' k a h ⟨v, hv⟩
    exact ⟨v, fun rep hr => hv rep (h hr)⟩
  · intro k _ S' _
    refine Doomed.readPoint.mono ?_
    rintro a j S'' ⟨rfl, v, h⟩
    exact ⟨⟨v, h.eq⟩, rfl, h.narrows⟩
  · rintro as j S' ⟨h1, h2, h3⟩
    have hlen : as.length = n := by simpa using h1.length_eq.symm
    refine ⟨hlen, ?_, h2, h3⟩
    rw [← hlen]
    clear hlen
    revert h1
    generalize List.range n = l
    intro h1
    clear h2 h3
    induction h1 with
    | nil => exact ⟨[], rfl, fun _ _ => rfl⟩
    | @cons k a l as h h1 ih =>
      obtain ⟨v, hv⟩ := h
      obtain ⟨vs, hl, hvs⟩ := ih
      exact ⟨v :: vs, by simp [hl], fun rep hr => by rw [List.map_cons, hv rep hr, hvs rep hr]⟩

theorem Doomed.readNScalars (n : ℕ) :
    Doomed e N i S (fun h => R.readNScalars (withHash e h) n)
      fun as j S' => as.length = n ∧ j = i ∧ Narrows S S' := by
  refine (Doomed.mapM (List.range n) (fun _ h => R.readScalar (withHash e h))
    (fun S' _ a => True) (fun _ _ _ _ _ h => h) ?_).mono ?_
  · intro k _ S' _
    refine Doomed.readScalar.mono ?_
    rintro a j S'' ⟨rfl, rfl⟩
    exact ⟨trivial, rfl, .refl _⟩
  · rintro as j S' ⟨h1, h2, h3⟩
    exact ⟨by simpa using h1.length_eq.symm, h2, h3⟩

/-! ## From the game to runs -/

section

variable [Field K] [AddCommGroup A]

theorem prefix_inj {a b l : Bytes} (ha : a <+: l) (hb : b <+: l) (h : a.length = b.length) :
    a = b := by
  rcases List.prefix_of_prefix_length_le ha hb h.le with ⟨t, ht⟩
  have : t = [] := by
    have := congrArg List.length ht
    rw [List.length_append] at this
    exact List.length_eq_zero_iff.1 (by omega)
  rw [← ht, this, List.append_nil]

theorem ptBytes_inj (he : e.Valid) {p q : A} (hp : e.coords p ≠ none) (hq : e.coords q ≠ none)
    {s₀ s : Bytes} (h1 : s₀ ++ ptBytes e p <+: s) (h2 : s₀ ++ ptBytes e q <+: s) : p = q := by
  obtain ⟨⟨x, y⟩, hp⟩ := Option.ne_none_iff_exists'.1 hp
  obtain ⟨⟨x', y'⟩, hq⟩ := Option.ne_none_iff_exists'.1 hq
  have hl : ∀ {p : A} {x y : K}, e.coords p = some (x, y) → (ptBytes e p).length = 65 := by
    intro p x y hc
    unfold ptBytes
    rw [hc]
    simp only [List.length_append, he.base_len, List.length_singleton]
  have := List.append_cancel_left (prefix_inj h1 h2 (by
    rw [List.length_append, List.length_append, hl hp, hl hq]))
  unfold ptBytes at this
  rw [hp, hq] at this
  simp only [List.append_assoc] at this
  have := List.append_cancel_left this
  obtain ⟨h3, h4⟩ := List.append_inj this (by rw [he.base_len, he.base_len])
  rw [he.base_inj _ _ h3, he.base_inj _ _ h4] at hp
  have e1 := he.coords_valid.fromXY_eq _ _ _ hp
  rw [he.coords_valid.fromXY_eq _ _ _ hq] at e1
  exact (Option.some.inj e1).symm

theorem scalarBytes_inj (he : e.Valid) {x y : F} {s₀ s : Bytes}
    (h1 : s₀ ++ ([prefixScalar] ++ e.scalarRepr x) <+: s)
    (h2 : s₀ ++ ([prefixScalar] ++ e.scalarRepr y) <+: s) : x = y := by
  have := List.append_cancel_left (prefix_inj h1 h2 (by
    simp only [List.length_append, he.scalar_len]))
  have := List.append_cancel_left this
  have e1 := (he.scalar_iff _ _).2 this
  rw [(he.scalar_iff _ _).2 rfl] at e1
  exact (Option.some.inj e1).symm

theorem ptBytes_head {p : A} (hp : e.coords p ≠ none) : ∃ t, ptBytes e p = prefixPoint :: t := by
  obtain ⟨⟨x, y⟩, hp⟩ := Option.ne_none_iff_exists'.1 hp
  unfold ptBytes
  rw [hp]
  exact ⟨_, rfl⟩

theorem head_eq {s s' t t' : Bytes} {a b : UInt8} (h1 : s ++ (a :: t) <+: s')
    (h2 : s ++ (b :: t') <+: s') : a = b := by
  obtain ⟨r, rfl⟩ := h1
  obtain ⟨r', h⟩ := h2
  rw [List.append_assoc, List.append_assoc] at h
  have := List.append_cancel_left h
  simp at this
  exact this.1.symm

/-- What was absorbed determines the log. -/
theorem Logged.unique (he : e.Valid) {rep : A → V} {s s' : Bytes} {l l' : List (Item F A V)}
    (h : Logged e rep s l s') (h' : Logged e rep s l' s') : l = l' := by
  have hne : ∀ {s t : Bytes} {a : UInt8}, ¬ s ++ (a :: t) <+: s := by
    intro s t a hp
    have := hp.length_le
    simp at this
    omega
  induction h generalizing l' with
  | nil =>
    cases h' with
    | nil => rfl
    | point hp h' =>
      obtain ⟨t, ht⟩ := ptBytes_head hp
      have := h'.prefix; rw [ht] at this; exact absurd this hne
    | scalar h' => exact absurd h'.prefix hne
    | challenge h' => exact absurd h'.prefix hne
  | point hp h ih =>
    obtain ⟨t, ht⟩ := ptBytes_head hp
    have hp1 := h.prefix
    cases h' with
    | nil => rw [ht] at hp1; exact absurd hp1 hne
    | point hq h' =>
      obtain rfl := ptBytes_inj he hp hq hp1 h'.prefix
      rw [ih h']
    | scalar h' => rw [ht] at hp1; exact absurd (head_eq hp1 h'.prefix) (by decide)
    | challenge h' => rw [ht] at hp1; exact absurd (head_eq hp1 h'.prefix) (by decide)
  | scalar h ih =>
    have hp1 := h.prefix
    cases h' with
    | nil => exact absurd hp1 hne
    | point hq h' =>
      obtain ⟨t, ht⟩ := ptBytes_head hq
      have := h'.prefix; rw [ht] at this
      exact absurd (head_eq hp1 this) (by decide)
    | scalar h' =>
      obtain rfl := scalarBytes_inj he hp1 h'.prefix
      rw [ih h']
    | challenge h' => exact absurd (head_eq hp1 h'.prefix) (by decide)
  | challenge h ih =>
    have hp1 := h.prefix
    cases h' with
    | nil => exact absurd hp1 hne
    | point hq h' =>
      obtain ⟨t, ht⟩ := ptBytes_head hq
      have := h'.prefix; rw [ht] at this
      exact absurd (head_eq hp1 this) (by decide)
    | scalar h' => exact absurd (head_eq hp1 h'.prefix) (by decide)
    | challenge h' => rw [ih h']

/-- A doomed verifier has sets of bad challenges, at most `N j` of them for the `j`-th challenge,
fixed before the hash function: every run, with any hash function, on any input and with any
annotation, that succeeds and avoids the bad challenges, satisfies `Q`. -/
theorem Doomed.bad (he : e.Valid) {r : Hash F → R F α} {Q : α → ℕ → Set (A → V) → Prop}
    (h : Doomed e N i S r Q) :
    ∃ bad : List (Item F A V) → Finset F, (∀ l, (bad l).card ≤ N (i + challenges l)) ∧
      ∀ (hash : Hash F) (st : RState F) (a : α) (st' : RState F), r hash st = .ok (a, st') →
        ∀ rep ∈ S, ∃ l, Logged (withHash e hash) rep st.absorbed l st'.absorbed ∧
          (Avoids bad l → ∃ S', rep ∈ S' ∧ Q a (i + challenges l) S') := by
  classical
  induction h with
  | ret h =>
    refine ⟨fun _ => ∅, by simp, fun hash st a st' hr rep hS => ⟨[], ?_, fun _ => ?_⟩⟩
    · cases hr; exact .nil
    · cases hr; exact ⟨_, hS, h⟩
  | fail h => exact ⟨fun _ => ∅, by simp, fun hash st a st' hr => absurd hr (h _ _ _)⟩
  | ref h _ ih =>
    obtain ⟨bad, h1, h2⟩ := ih
    exact ⟨bad, h1, fun hash st a st' hr => h2 hash st a st' (h _ _ _ hr)⟩
  | @commonPoint i S p r Q _ ih =>
    obtain ⟨bad, h1, h2⟩ := ih
    refine ⟨fun l => match l with | .point _ _ :: t => bad t | _ => ∅, ?_,
      fun hash st a st' hr rep hS => ?_⟩
    · rintro (_ | ⟨_ | _ | _, t⟩)
      all_goals first | exact h1 t | simp
    · obtain ⟨_, s₁, h3, h4⟩ := bind_ok hr
      obtain ⟨rfl, hc⟩ := commonPoint_ok h3
      obtain ⟨l, h5, h6⟩ := h2 hash _ a st' h4 rep hS
      exact ⟨_, .point hc h5, fun hav => h6 hav.tail⟩
  | @commonScalar i S x r Q _ ih =>
    obtain ⟨bad, h1, h2⟩ := ih
    refine ⟨fun l => match l with | .scalar _ :: t => bad t | _ => ∅, ?_,
      fun hash st a st' hr rep hS => ?_⟩
    · rintro (_ | ⟨_ | _ | _, t⟩)
      all_goals first | exact h1 t | simp
    · obtain ⟨_, s₁, h3, h4⟩ := bind_ok hr
      cases h3
      obtain ⟨l, h5, h6⟩ := h2 hash _ a st' h4 rep hS
      exact ⟨_, .scalar (x := x) (by rw [← List.append_assoc]; exact h5), fun hav => h6 hav.tail⟩
  | @point i S f Q _ ih =>
    have : ∀ p v, ∃ bad : List (Item F A V) → Finset F,
        (∀ l, (bad l).card ≤ N (i + challenges l)) ∧ ((S ∩ {rep | rep p = v}).Nonempty →
        ∀ (hash : Hash F) (st : RState F) (a : _) (st' : RState F), f p hash st = .ok (a, st') →
          ∀ rep ∈ S ∩ {rep | rep p = v}, ∃ l,
          Logged (withHash e hash) rep st.absorbed l st'.absorbed ∧
          (Avoids bad l → ∃ S', rep ∈ S' ∧ Q a (i + challenges l) S')) := by
      intro p v
      by_cases hc : (S ∩ {rep | rep p = v}).Nonempty
      · obtain ⟨bad, h1, h2⟩ := ih p v hc
        exact ⟨bad, h1, fun _ => h2⟩
      · exact ⟨fun _ => ∅, by simp, fun h => absurd h hc⟩
    choose bad h1 h2 using this
    refine ⟨fun l => match l with | .point p v :: t => bad p v t | _ => ∅, ?_,
      fun hash st a st' hr rep hS => ?_⟩
    · rintro (_ | ⟨_ | _ | _, t⟩)
      all_goals first | exact h1 _ _ t | simp
    · obtain ⟨p, s₁, h3, h4⟩ := bind_ok hr
      obtain ⟨inp, rfl, hc⟩ := readPoint_ok h3
      obtain ⟨l, h5, h6⟩ := h2 p (rep p) ⟨rep, hS, rfl⟩ hash _ a st' h4 rep ⟨hS, rfl⟩
      exact ⟨_, .point hc h5, fun hav => h6 hav.tail⟩
  | @scalar i S f Q _ ih =>
    choose bad h1 h2 using ih
    refine ⟨fun l => match l with | .scalar x :: t => bad x t | _ => ∅, ?_,
      fun hash st a st' hr rep hS => ?_⟩
    · rintro (_ | ⟨_ | _ | _, t⟩)
      all_goals first | exact h1 _ t | simp
    · obtain ⟨p, s₁, h3, h4⟩ := bind_ok hr
      obtain ⟨inp, rfl⟩ := readScalar_ok h3
      obtain ⟨l, h5, h6⟩ := h2 p hash _ a st' h4 rep hS
      exact ⟨_, .scalar h5, fun hav => h6 hav.tail⟩
  | @challenge i S f Q B hB hl d ih =>
    have : ∀ c, ∃ bad : List (Item F A V) → Finset F,
        (∀ l, (bad l).card ≤ N (i + 1 + challenges l)) ∧ (c ∉ B →
        ∀ (hash : Hash F) (st : RState F) (a : _) (st' : RState F), f c hash st = .ok (a, st') →
          ∀ rep ∈ S, ∃ l, Logged (withHash e hash) rep st.absorbed l st'.absorbed ∧
          (Avoids bad l → ∃ S', rep ∈ S' ∧ Q a (i + 1 + challenges l) S')) := by
      intro c
      by_cases hc : c ∈ B
      · exact ⟨fun _ => ∅, by simp, fun h => absurd hc h⟩
      · obtain ⟨bad, h1, h2⟩ := ih c hc
        exact ⟨bad, h1, fun _ => h2⟩
    choose bad h1 h2 using this
    refine ⟨fun l => match l with | [] => B | .challenge c :: t => bad c t | _ => ∅, ?_,
      fun hash st a st' hr rep hS => ?_⟩
    · rintro (_ | ⟨_ | _ | _, t⟩)
      · exact hB
      · simp
      · simp
      · rename_i c
        have := h1 c t
        rw [show i + 1 + challenges t = i + (challenges t + 1) by omega] at this
        exact this
    · obtain ⟨c, s₁, h3, h4⟩ := bind_ok hr
      rw [squeezeR_ok (withHash_valid he hash)] at h3
      cases h3
      by_cases hc : chal (withHash e hash) st.absorbed ∈ B
      · obtain ⟨l, h5⟩ := hl _ hash rep _ _ _ h4
        exact ⟨_, .challenge h5, fun hav => absurd hc (hav [] _ l rfl)⟩
      · obtain ⟨l, h5, h6⟩ := h2 _ hc hash _ a st' h4 rep hS
        refine ⟨_, .challenge h5, fun hav => ?_⟩
        have := h6 hav.tail
        rwa [show i + 1 + challenges l = i + (challenges l + 1) by omega] at this

end

end Verif.Sound
