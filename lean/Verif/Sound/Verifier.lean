import Verif.Sound.Evals
import Verif.Plonk.Soundness
import Verif.Protocol.Props

/-!
# The verifier of a proof against provers who choose what is read
-/

namespace Verif.Sound

open Verif.Cs (Cs Column)
open Verif.Domain (Domain)
open Verif.Msm Verif.PolyArith Verif.Transcript Verif.Protocol Polynomial
open Verif.Plonk (CircuitProof CircuitEvals queryEvals circuitEvals Columns Products assemble Ready
  Violates circuitOf permsOf Shape)
open Verif.Multiopen (Query Commitment commitOf)
open Verif.Ipa (ParamsOk)

variable {F K A V X Y : Type}

/-! ## Settled annotations -/

/-- All annotations still possible agree on `f`. -/
def Settled (S : Set (A → V)) (f : (A → V) → X) : Prop := ∀ rep ∈ S, ∀ rep' ∈ S, f rep = f rep'

theorem Settled.mono {S S' : Set (A → V)} {f : (A → V) → X} (h : Settled S f) (hs : S' ⊆ S) :
    Settled S' f := fun rep hr rep' hr' => h rep (hs hr) rep' (hs hr')

theorem Settled.eq {S : Set (A → V)} {f : (A → V) → X} (h : Settled S f) {rep rep' : A → V}
    (hr : rep ∈ S) (hr' : rep' ∈ S) : f rep = f rep' := h rep hr rep' hr'

theorem Settled.map {ι : Type} {S : Set (A → V)} {l : List ι} {f : ι → (A → V) → X}
    (h : ∀ a ∈ l, Settled S (f a)) : Settled S fun rep => l.map fun a => f a rep :=
  fun rep hr rep' hr' => List.map_congr_left fun a ha => h a ha rep hr rep' hr'

theorem Settled.of_map {ι : Type} {S : Set (A → V)} {l : List ι} {f : ι → (A → V) → X}
    (h : Settled S fun rep => l.map fun a => f a rep) : ∀ a ∈ l, Settled S (f a) :=
  fun a ha rep hr rep' hr' => List.map_inj_left.1 (h rep hr rep' hr') a ha

theorem Given.settled {S S' : Set (A → V)} {p : A} {v : V} (h : Given S S' p v) :
    Settled S' fun rep => rep p :=
  fun rep hr rep' hr' => (h.eq rep hr).trans (h.eq rep' hr').symm

/-! ## Reading lists -/

variable {e : Enc F K A} {N : ℕ → ℕ} {i : ℕ} {S : Set (A → V)} {ι α : Type}

/-- Reading a list whose entries are settled and of a given kind. -/
theorem Doomed.settledM (l : List ι) (f : ι → Hash F → R F α) (P : ι → α → Prop)
    (G : α → (A → V) → X)
    (hf : ∀ k ∈ l, ∀ S', Narrows S S' → Doomed e N i S' (f k)
      fun a j S'' => (P k a ∧ Settled S'' (G a)) ∧ j = i ∧ Narrows S' S'')
    (hl : ∀ k hs, Logs V (withHash e hs) (f k hs) := by logs) :
    Doomed e N i S (fun h => l.mapM fun k => f k h)
      fun as j S' => (List.Forall₂ P l as ∧ Settled S' fun rep => as.map fun a => G a rep) ∧
        j = i ∧ Narrows S S' := by
  refine (Doomed.mapM l f (fun S' k a => P k a ∧ Settled S' (G a)) ?_ hf hl).mono ?_
  · rintro S S' k a h ⟨h1, h2⟩
    exact ⟨h1, h2.mono h⟩
  · rintro as j S' ⟨h1, h2, h3⟩
    refine ⟨⟨h1.imp fun _ _ h => h.1, Settled.map fun a ha => ?_⟩, h2, h3⟩
    clear h2 h3
    induction h1 with
    | nil => simp at ha
    | cons h _ ih =>
      rcases List.mem_cons.1 ha with rfl | ha
      · exact h.2
      · exact ih (fun k hk S' h => hf k (by simp [hk]) S' h) ha

theorem Doomed.readPointS : Doomed e N i S (fun h => R.readPoint (withHash e h))
    fun p j S' => (True ∧ Settled S' fun rep => rep p) ∧ j = i ∧ Narrows S S' := by
  refine Doomed.readPoint.mono ?_
  rintro a j S' ⟨rfl, v, h⟩
  exact ⟨⟨trivial, h.settled⟩, rfl, h.narrows⟩

theorem Doomed.readNPointsS (n : ℕ) : Doomed e N i S (fun h => R.readNPoints (withHash e h) n)
    fun as j S' => (as.length = n ∧ Settled S' fun rep => as.map rep) ∧ j = i ∧ Narrows S S' := by
  refine (Doomed.readNPoints n).mono ?_
  rintro as j S' ⟨h1, ⟨vs, -, h2⟩, h3, h4⟩
  exact ⟨⟨h1, fun rep hr rep' hr' => (h2 rep hr).trans (h2 rep' hr').symm⟩, h3, h4⟩

theorem Doomed.readScalarS : Doomed e N i S (fun h => R.readScalar (withHash e h))
    fun _ j S' => True ∧ j = i ∧ Narrows S S' := by
  refine Doomed.readScalar.mono ?_
  rintro a j S' ⟨rfl, rfl⟩
  exact ⟨trivial, rfl, .refl _⟩

/-- Reading a list of which only the kind matters. -/
theorem Doomed.kindM (l : List ι) (f : ι → Hash F → R F α) (P : ι → α → Prop)
    (hf : ∀ k ∈ l, ∀ S' : Set (A → V), Doomed e N i S' (f k) fun a j S'' => P k a ∧ j = i ∧ Narrows S' S'')
    (hl : ∀ k hs, Logs V (withHash e hs) (f k hs) := by logs) :
    Doomed e N i S (fun h => l.mapM fun k => f k h)
      fun as j S' => List.Forall₂ P l as ∧ j = i ∧ Narrows S S' :=
  Doomed.mapM l f (fun _ k a => P k a) (fun _ _ _ _ _ h => h) (fun k hk S' _ => hf k hk S') hl

theorem Logs.readPermutation [Field F] [AddCommGroup A] [Module F A] (l : List A) :
    Logs V e (Verif.Protocol.readPermutation e l) := by
  induction l with
  | nil => exact Logs.pure _
  | cons a l ih =>
    unfold Verif.Protocol.readPermutation
    refine Logs.readScalar.bind fun _ => Logs.readScalar.bind fun _ => Logs.bind ?_ fun _ =>
      ih.bind fun _ => Logs.pure _
    split_ifs
    · exact Logs.readScalar.bind fun _ => Logs.pure _
    · exact Logs.pure _

theorem Logs.readLookup [Field F] [AddCommGroup A] [Module F A] : Logs V e (Verif.Protocol.readLookup e) := by
  unfold Verif.Protocol.readLookup; logs

theorem Logs.check (c : Prop) [Decidable c] (err : Err) : Logs V e (Verif.Protocol.check c err : R F Unit) := by
  unfold Verif.Protocol.check
  split_ifs
  · exact Logs.pure _
  · exact Logs.throw _

macro_rules | `(tactic| logs_ext) => `(tactic| exact Logs.readPermutation _)
macro_rules | `(tactic| logs_ext) => `(tactic| exact Logs.readLookup)
macro_rules | `(tactic| logs_ext) => `(tactic| exact Logs.check _ _)

theorem Doomed.check (c : Prop) [Decidable c] (err : Err) :
    Doomed e N i S (fun _ => (Verif.Protocol.check c err : R F Unit)) fun _ j S' => c ∧ j = i ∧ S' = S := by
  unfold Verif.Protocol.check
  split_ifs with h
  · exact .ret ⟨h, rfl, rfl⟩
  · exact Doomed.throw _ _

theorem Doomed.readPermutation [Field F] [AddCommGroup A] [Module F A] (l : List A) :
    Doomed e N i S (fun h => Verif.Protocol.readPermutation (withHash e h) l)
      fun as j S' => (as.length = l.length ∧ PermShape as) ∧ j = i ∧ Narrows S S' := by
  induction l generalizing S with
  | nil => exact .ret ⟨⟨rfl, fun i ev h => by simp at h⟩, rfl, .refl _⟩
  | cons a l ih =>
    unfold Verif.Protocol.readPermutation
    refine Doomed.readScalar.bind ?_ ?_
    swap
    · intro a hs
      refine Logs.readScalar.bind fun _ => Logs.bind ?_ fun _ =>
        (Logs.readPermutation _).bind fun _ => Logs.pure _
      split_ifs <;> logs
    rintro x₁ i S ⟨rfl, rfl⟩
    refine Doomed.readScalar.bind ?_ ?_
    swap
    · intro a hs
      refine Logs.bind ?_ fun _ => (Logs.readPermutation _).bind fun _ => Logs.pure _
      split_ifs <;> logs
    rintro x₂ i S ⟨rfl, rfl⟩
    refine Doomed.bind (Q := fun c j S' => (c.isSome ↔ 0 < l.length) ∧ j = i ∧ S' = S) ?_ ?_
    · split_ifs with hl
      · refine Doomed.readScalar.bind ?_
        rintro c _ S ⟨rfl, rfl⟩
        exact .ret ⟨by simpa using hl, rfl, rfl⟩
      · exact .ret ⟨by simpa using hl, rfl, rfl⟩
    rintro c _ S ⟨hc, rfl, rfl⟩
    refine Doomed.bind ih ?_
    rintro t _ S' ⟨⟨ht, hp⟩, rfl, hS⟩
    refine .ret ⟨⟨by simp [ht], fun s ev h => ?_⟩, rfl, hS⟩
    rcases s with _ | s
    · cases h
      dsimp only
      rw [hc, ht.symm]
      simp
    · simp only [List.getElem?_cons_succ] at h
      rw [hp s ev h]
      simp

theorem Doomed.readLookup [Field F] [AddCommGroup A] [Module F A] :
    Doomed e N i S (fun h => Verif.Protocol.readLookup (withHash e h)) fun _ j S' => True ∧ j = i ∧ Narrows S S' := by
  unfold Verif.Protocol.readLookup
  refine Doomed.readScalar.bind ?_
  rintro _ _ S ⟨rfl, rfl⟩
  refine Doomed.readScalar.bind ?_
  rintro _ _ S ⟨rfl, rfl⟩
  refine Doomed.readScalar.bind ?_
  rintro _ _ S ⟨rfl, rfl⟩
  refine Doomed.readScalar.bind ?_
  rintro _ _ S ⟨rfl, rfl⟩
  refine Doomed.readScalar.bind ?_
  rintro _ _ S ⟨rfl, rfl⟩
  exact .ret ⟨trivial, rfl, .refl _⟩

end Verif.Sound
