import Verif.Protocol.Instances
import Verif.Batch.Model

/-!
# The guard returned for any proof is well formed
-/

namespace Verif.Batch

open Verif.Msm Verif.Transcript Verif.Domain Verif.Protocol
open Verif.Cs (Cs)

/-- Partial correctness: a property of the value returned. -/
def Post {σ α : Type} (m : StateT σ (Except Err) α) (Q : α → Prop) : Prop :=
  ∀ s a s', m s = .ok (a, s') → Q a

section

variable {σ α β ι : Type}

theorem Post.any (m : StateT σ (Except Err) α) : Post m fun _ => True := fun _ _ _ _ => trivial

theorem Post.bind {m : StateT σ (Except Err) α} {f : α → StateT σ (Except Err) β} {P : α → Prop}
    {Q : β → Prop} (hm : Post m P) (hf : ∀ a, P a → Post (f a) Q) : Post (m >>= f) Q := by
  intro s b s' h
  obtain ⟨a, s₁, h1, h2⟩ := bind_ok h
  exact hf a (hm _ _ _ h1) _ _ _ h2

theorem Post.pure {a : α} {Q : α → Prop} (h : Q a) :
    Post (Pure.pure a : StateT σ (Except Err) α) Q := by
  intro s b s' hb; cases hb; exact h

theorem Post.panics {x : Option α} {Q : α → Prop} (h : ∀ a, x = some a → Q a) :
    Post (Transcript.panics x : StateT σ (Except Err) α) Q := by
  cases x with
  | none => intro s b s' hb; cases hb
  | some a => exact Post.pure (h a rfl)

theorem Post.mapErr {err : Err} {m : StateT σ (Except Err) α} {Q : α → Prop} (h : Post m Q) :
    Post (Transcript.mapErr err m) Q := by
  intro s b s' hb
  unfold Transcript.mapErr at hb
  rcases hm : m s with er | ⟨a, s₁⟩
  · rw [hm] at hb; cases er <;> cases hb
  · rw [hm] at hb; cases hb; exact h _ _ _ hm

theorem foldlM_inv {P : β → Prop} {f : β → ι → Option β} {l : List ι}
    (hf : ∀ b, P b → ∀ i ∈ l, ∀ b', f b i = some b' → P b') {b b' : β} (hb : P b)
    (h : l.foldlM f b = some b') : P b' := by
  induction l generalizing b with
  | nil => cases h; exact hb
  | cons i l ih =>
    rw [List.foldlM_cons] at h
    obtain ⟨c, h1, h2⟩ := Option.bind_eq_some_iff.1 h
    exact ih (fun b hb i hi => hf b hb i (List.mem_cons_of_mem _ hi))
      (hf b hb i List.mem_cons_self c h1) h2

end

variable {F K A : Type} [Field F] [Field K] [LinearOrder K] [AddCommGroup A] [Module F A]

/-- The accumulator denotes some point. -/
def Good (cv : Coords K A) (pr : Params A) (m : MSM F K) : Prop := ∃ v : A, Holds cv pr m v

section

variable {cv : Coords K A} {pr : Params A}

theorem Good.new : Good cv pr (MSM.new : MSM F K) := ⟨0, holds_new cv pr⟩

theorem Good.append (hv : cv.Valid) {m m' : MSM F K} (h : Good cv pr m) {s : F} {p : A}
    (hm : m.appendTerm cv s p = some m') : Good cv pr m' := by
  obtain ⟨v, h⟩ := h
  obtain ⟨m'', h1, h2⟩ := holds_append hv h s p
  rw [h1] at hm; cases hm; exact ⟨_, h2⟩

theorem Good.scale {m : MSM F K} (h : Good cv pr m) (s : F) : Good cv pr (m.scale s) := by
  obtain ⟨v, h⟩ := h; exact ⟨_, holds_scale h s⟩

theorem Good.add (hv : cv.Valid) {m o m' : MSM F K} (h : Good cv pr m) (ho : Good cv pr o)
    (hm : m.addMsm pr o = some m') : Good cv pr m' := by
  obtain ⟨v, h⟩ := h
  obtain ⟨w, ho⟩ := ho
  obtain ⟨m'', h1, h2⟩ := holds_add hv h ho
  rw [h1] at hm; cases hm; exact ⟨_, h2⟩

end

variable {e : Enc F K A} {pr : Params A}

theorem readRounds_length (n : ℕ) :
    Post (Verif.Ipa.readRounds e n : R F _) fun l => l.length = n := by
  induction n with
  | zero => exact .pure rfl
  | succ n ih =>
    unfold Verif.Ipa.readRounds
    exact (Post.any _).bind fun _ _ => (Post.any _).bind fun _ _ => (Post.any _).bind fun _ _ =>
      ih.bind fun t ht => .pure (by simp [ht])

theorem appendRounds_good {cv : Coords K A} (hv : cv.Valid) (l : List ((A × A × F) × F)) :
    ∀ m m' : MSM F K, Good cv pr m → Verif.Ipa.appendRounds cv m l = some m' → Good cv pr m' := by
  induction l with
  | nil => intro m m' h hm; cases hm; exact h
  | cons q l ih =>
    obtain ⟨⟨a, b, u⟩, i⟩ := q
    intro m m' h hm
    unfold Verif.Ipa.appendRounds at hm
    obtain ⟨m₁, h1, hm⟩ := Option.bind_eq_some_iff.1 hm
    obtain ⟨m₂, h2, hm⟩ := Option.bind_eq_some_iff.1 hm
    exact ih _ _ ((h.append hv h1).append hv h2) hm

theorem ipa_guard [DecidableEq F] (he : e.Valid) (hpr : pr.Ok) {msm : MSM F K} (hm : Good e.toCoords pr msm)
    (x v : F) : Post (Verif.Ipa.verifyProof e pr msm x v) fun gd =>
      gd.u.length = pr.k ∧ Good e.toCoords pr gd.msm := by
  unfold Verif.Ipa.verifyProof
  refine Post.bind (Post.panics (Q := Good e.toCoords pr) ?_) fun m₁ h1 => ?_
  · intro m' h
    obtain ⟨w, hm⟩ := hm
    obtain ⟨m'', h1, h2⟩ := holds_constant hpr hm (-v)
    rw [h1] at h; cases h; exact ⟨_, h2⟩
  refine (Post.any _).bind fun _ _ => (Post.any _).bind fun _ _ => ?_
  refine Post.bind (Post.panics (Q := Good e.toCoords pr) fun m' h => h1.append he.coords_valid h)
    fun m₂ h2 => ?_
  refine (Post.any _).bind fun _ _ => (readRounds_length _).bind fun rs hrs =>
    (Post.any _).bind fun invs _ => ?_
  refine Post.bind (Post.panics (Q := Good e.toCoords pr)
    fun m' h => appendRounds_good he.coords_valid _ _ _ h2 h) fun m₃ h3 => ?_
  refine (Post.any _).bind fun _ _ => (Post.any _).bind fun _ _ => Post.pure ⟨by simpa using hrs, ?_⟩
  obtain ⟨w, h3⟩ := h3
  exact ⟨_, holds_w (holds_u h3 _) _⟩

theorem accumulate_inv {σ α : Type} {P : σ → Prop} {idx : α → ℕ} {f : α → σ → Option σ}
    {st st' : List σ} {l : List α} (hf : ∀ a x y, P x → f a x = some y → P y)
    (hst : ∀ x ∈ st, P x) (h : Verif.Multiopen.accumulate idx f st l = some st') :
    ∀ x ∈ st', P x := by
  refine foldlM_inv (P := fun st : List σ => ∀ x ∈ st, P x) ?_ hst h
  intro b hb a _ b' hb'
  obtain ⟨x, h1, h2⟩ := Option.bind_eq_some_iff.1 hb'
  obtain ⟨y, h3, rfl⟩ := Option.map_eq_some_iff.1 h2
  intro z hz
  rcases List.mem_or_eq_of_mem_set hz with hz | rfl
  · exact hb z hz
  · exact hf a x z (hb x (List.mem_of_getElem? h1)) h3

theorem multiopen_guard {ι : Type} [DecidableEq ι] [LinearOrder F] (he : e.Valid) (hpr : pr.Ok)
    (mem : ι → Verif.Multiopen.Commitment F K A)
    (hmem : ∀ i m, mem i = .msm m → Good e.toCoords pr m)
    (queries : List (Verif.Multiopen.Query F ι F)) {msm : MSM F K} (hm : Good e.toCoords pr msm) :
    Post (Verif.Multiopen.verifyProof e pr mem queries msm) fun gd =>
      gd.u.length = pr.k ∧ Good e.toCoords pr gd.msm := by
  unfold Verif.Multiopen.verifyProof
  refine (Post.any _).bind fun x₁ _ => (Post.any _).bind fun x₂ _ => (Post.any _).bind fun r _ => ?_
  refine Post.bind (Post.panics (Q := fun qs => ∀ q ∈ qs, Good e.toCoords pr q.1) ?_)
    fun qs hqs => ?_
  · intro qs h
    refine accumulate_inv (P := fun q : MSM F K × F × List F => Good e.toCoords pr q.1) ?_ ?_ h
    · intro a x y hx hy
      unfold Verif.Multiopen.accCommitment at hy
      obtain ⟨m, h1, rfl⟩ := Option.map_eq_some_iff.1 hy
      split at h1
      · exact hx.append he.coords_valid h1
      · rename_i m' hm'
        exact hx.add he.coords_valid ((hmem _ _ hm').scale _) h1
    · intro x hx
      obtain ⟨ps, _, rfl⟩ := List.mem_map.1 hx
      exact Good.new
  refine (Post.any _).bind fun _ _ => (Post.any _).bind fun _ _ => (Post.any _).bind fun u _ =>
    (Post.any _).bind fun _ _ => (Post.any _).bind fun _ _ => ?_
  refine Post.bind (Post.panics (Q := Good e.toCoords pr) fun m' h => hm.append he.coords_valid h)
    fun m₂ h2 => ?_
  refine Post.bind (Post.panics (Q := fun p => Good e.toCoords pr p.1) ?_) fun p hp => ?_
  · intro p h
    refine foldlM_inv (P := fun p : MSM F K × F => Good e.toCoords pr p.1) ?_ (b := (m₂, _)) h2 h
    intro b hb qu hqu b' hb'
    obtain ⟨m, h1, rfl⟩ := Option.map_eq_some_iff.1 hb'
    exact (hb.scale _).add he.coords_valid (hqs _ (List.of_mem_zip (a := qu.1) (b := qu.2) hqu).1) h1
  · exact ipa_guard he hpr hp _ _

theorem hCommitment_good (he : e.Valid) (xn : F) (cs : List A) {m : MSM F K}
    (h : hCommitment e xn cs = some m) : Good e.toCoords pr m := by
  refine foldlM_inv (P := Good e.toCoords pr) ?_ Good.new h
  intro b hb c _ b' hb'
  exact (hb.scale xn).append he.coords_valid hb'

theorem getD_inv {P : Type} {Q : P → Prop} {x : Option P} {dflt : P} (h0 : Q dflt)
    (h : ∀ p, x = some p → Q p) : Q (x.getD dflt) := by
  cases x with
  | none => exact h0
  | some p => exact h p rfl

theorem deref_inv {P : Type} {Q : P → Prop} {dflt : P} {os : List (Opens P)} {fixed perm : List P}
    {h random : P} (h0 : Q dflt)
    (hos : ∀ o ∈ os, (∀ x ∈ o.inst, Q x) ∧ (∀ x ∈ o.advice, Q x) ∧ (∀ x ∈ o.permutation, Q x) ∧
      ∀ x ∈ o.lookups, Q x.1 ∧ Q x.2.1 ∧ Q x.2.2)
    (hf : ∀ x ∈ fixed, Q x) (hp : ∀ x ∈ perm, Q x) (hh : Q h) (hr : Q random) (i : Ptr) :
    Q (deref dflt os fixed perm h random i) := by
  have key : ∀ (i : ℕ) (f : Opens P → Option P), (∀ o ∈ os, ∀ p, f o = some p → Q p) →
      Q (((os[i]?).bind f).getD dflt) := by
    intro i f hf
    refine getD_inv h0 fun p hp => ?_
    obtain ⟨o, h1, h2⟩ := Option.bind_eq_some_iff.1 hp
    exact hf o (List.mem_of_getElem? h1) p h2
  cases i with
  | inst i c => exact key _ _ fun o ho p hp => (hos o ho).1 p (List.mem_of_getElem? hp)
  | advice i c => exact key _ _ fun o ho p hp => (hos o ho).2.1 p (List.mem_of_getElem? hp)
  | perm i c => exact key _ _ fun o ho p hp => (hos o ho).2.2.1 p (List.mem_of_getElem? hp)
  | lookupZ i c =>
    refine key _ _ fun o ho p hp => ?_
    obtain ⟨q, h1, rfl⟩ := Option.map_eq_some_iff.1 hp
    exact ((hos o ho).2.2.2 q (List.mem_of_getElem? h1)).1
  | lookupA i c =>
    refine key _ _ fun o ho p hp => ?_
    obtain ⟨q, h1, rfl⟩ := Option.map_eq_some_iff.1 hp
    exact ((hos o ho).2.2.2 q (List.mem_of_getElem? h1)).2.1
  | lookupS i c =>
    refine key _ _ fun o ho p hp => ?_
    obtain ⟨q, h1, rfl⟩ := Option.map_eq_some_iff.1 hp
    exact ((hos o ho).2.2.2 q (List.mem_of_getElem? h1)).2.2
  | fixed c =>
    rw [deref, List.getD_eq_getElem?_getD]
    exact getD_inv h0 fun p hp => hf p (List.mem_of_getElem? hp)
  | permCommon c =>
    rw [deref, List.getD_eq_getElem?_getD]
    exact getD_inv h0 fun q hq => hp q (List.mem_of_getElem? hq)
  | h => exact hh
  | random => exact hr

/-- Whatever the proof, a guard returned by the verifier is well formed. -/
theorem verifyGuard_good [LinearOrder F] (he : e.Valid) (hpr : pr.Ok) (d : Domain F) (cs : Cs F)
    (delta : F) (vk : Vk F A) (instances : List (List (List F))) :
    Post (verifyGuard e pr d cs delta vk instances MSM.new) fun gd =>
      gd.u.length = pr.k ∧ Good e.toCoords pr gd.msm := by
  unfold verifyGuard verifierOpen
  refine (Post.any _).bind fun r _ => (Post.any _).bind fun _ _ => (Post.any _).bind fun _ _ =>
    (Post.any _).bind fun _ _ => (Post.any _).bind fun _ _ => (Post.any _).bind fun _ _ =>
    (Post.any _).bind fun _ _ => (Post.any _).bind fun _ _ => ?_
  refine (Post.any _).bind fun _ _ => (Post.any _).bind fun _ _ => ?_
  refine Post.bind (Post.panics (Q := Good e.toCoords pr) fun m' h => hCommitment_good he _ _ h)
    fun m₂ h2 => (Post.any _).bind fun _ _ => Post.mapErr ?_
  refine multiopen_guard he hpr _ ?_ _ Good.new
  refine deref_inv (Q := fun x : Verif.Multiopen.Commitment F K A => ∀ m, x = .msm m → Good e.toCoords pr m) (fun m h => by cases h)
    ?_ ?_ ?_ (fun m h => by cases h; exact h2) (fun m h => by cases h)
  · intro o ho
    obtain ⟨c, _, rfl⟩ := List.mem_map.1 ho
    refine ⟨?_, ?_, ?_, ?_⟩ <;> intro x hx <;> obtain ⟨y, _, rfl⟩ := List.mem_map.1 hx
    · intro m h; cases h
    · intro m h; cases h
    · intro m h; cases h
    · refine ⟨?_, ?_, ?_⟩ <;> intro m h <;> cases h
  · intro x hx; obtain ⟨y, _, rfl⟩ := List.mem_map.1 hx; intro m h; cases h
  · intro x hx; obtain ⟨y, _, rfl⟩ := List.mem_map.1 hx; intro m h; cases h

end Verif.Batch
