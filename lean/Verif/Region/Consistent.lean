import Mathlib.Tactic.Tauto
import Mathlib.Data.Fin.Tuple.Basic
import Mathlib.Data.List.FinRange
import Verif.Region.Lemmas

/-!
# Layouts that assign each cell at most one value
-/

namespace Verif.Region

variable {C S F α β : Type}

/-- The cell `c` is assigned the value `v`. -/
def Assigned (ops : List (Op C S F)) (c : Cell C) (v : F) : Prop :=
  .advice c v ∈ ops ∨ .fixed c v ∈ ops

theorem Assigned.append {ops ops' : List (Op C S F)} {c : Cell C} {v : F} :
    Assigned (ops ++ ops') c v ↔ Assigned ops c v ∨ Assigned ops' c v := by
  simp only [Assigned, List.mem_append]
  tauto

/-- No cell is assigned two values. -/
def Consistent (ops : List (Op C S F)) : Prop :=
  ∀ c v w, Assigned ops c v → Assigned ops c w → v = w

/-- All assigned cells are in a set. -/
def Within (ops : List (Op C S F)) (A : Cell C → Prop) : Prop := ∀ c v, Assigned ops c v → A c

theorem Within.append {ops ops' : List (Op C S F)} {A B : Cell C → Prop} (h : Within ops A)
    (h' : Within ops' B) : Within (ops ++ ops') fun c => A c ∨ B c := fun c v hv =>
  (Assigned.append.1 hv).imp (h c v) (h' c v)

theorem Within.mono {ops : List (Op C S F)} {A B : Cell C → Prop} (h : Within ops A)
    (hAB : ∀ c, A c → B c) : Within ops B := fun c v hv => hAB c (h c v hv)

theorem Within.nil {A : Cell C → Prop} : Within ([] : List (Op C S F)) A := by
  intro c v h; simp [Assigned] at h

theorem Consistent.nil : Consistent ([] : List (Op C S F)) := by
  intro c v w h; simp [Assigned] at h

theorem Consistent.append {ops ops' : List (Op C S F)} (h : Consistent ops) (h' : Consistent ops')
    {A B : Cell C → Prop} (hA : Within ops A) (hB : Within ops' B) (hd : ∀ c, A c → B c → False) :
    Consistent (ops ++ ops') := by
  intro c v w hv hw
  rcases Assigned.append.1 hv with hv | hv <;> rcases Assigned.append.1 hw with hw | hw
  · exact h c v w hv hw
  · exact (hd c (hA c v hv) (hB c w hw)).elim
  · exact (hd c (hA c w hw) (hB c v hv)).elim
  · exact h' c v w hv hw

open Classical in
/-- A consistent layout has an honest assignment, which can be chosen freely elsewhere. -/
theorem Consistent.exists_honest {ops : List (Op C S F)} (h : Consistent ops) (G₀ : Grid C F) :
    ∃ G : Grid C F, Honest G ops ∧ ∀ c, (∀ v, ¬ Assigned ops c v) → G.at c = G₀.at c := by
  refine ⟨fun reg col row =>
    if hc : ∃ v, Assigned ops ⟨reg, col, row⟩ v then hc.choose else G₀ reg col row, ⟨?_, ?_⟩, ?_⟩
  · intro c v hv
    have hc : ∃ v, Assigned ops c v := ⟨v, Or.inl hv⟩
    exact (dif_pos hc).trans (h c _ _ hc.choose_spec (Or.inl hv))
  · intro c v hv
    have hc : ∃ v, Assigned ops c v := ⟨v, Or.inr hv⟩
    exact (dif_pos hc).trans (h c _ _ hc.choose_spec (Or.inr hv))
  · intro c hc
    exact dif_neg fun ⟨v, hv⟩ => hc v hv

instance : LawfulMonad (M C S F) := LawfulMonad.mk'
  (id_map := fun x => by
    funext n
    show (x >>= fun a => pure a) n = x n
    rw [bind_apply]
    rcases x n with _ | ⟨a, n', ops⟩
    · rfl
    · show some (a, n', ops ++ []) = _
      rw [List.append_nil])
  (pure_bind := fun a f => by
    funext n
    rw [bind_apply]
    show (match f a n with
      | none => none
      | some (b, n'', ops') => some (b, n'', [] ++ ops')) = f a n
    rcases f a n with _ | ⟨b, n', ops⟩ <;> rfl)
  (bind_assoc := fun x f g => by
    funext n
    simp only [bind_apply]
    rcases x n with _ | ⟨a, n', ops⟩
    · rfl
    · dsimp only
      rcases f a n' with _ | ⟨b, n'', ops'⟩
      · rfl
      · dsimp only
        rcases g b n'' with _ | ⟨c, n3, ops3⟩
        · rfl
        · simp only [List.append_assoc])

/-! ## Loops over the entries of an array -/

/-- `(0..n).map(f).collect::<Result<Vec<_>, _>>()`, then made into an array. -/
def tabulate : (n : ℕ) → (Fin n → M C S F α) → M C S F (Fin n → α)
  | 0, _ => pure Fin.elim0
  | n + 1, f => do
    let a ← f 0
    let rest ← tabulate n fun i => f i.succ
    pure (Fin.cons a rest)

theorem tabulate_run {n : ℕ} {f : Fin n → M C S F α} {g : Fin n → α}
    {ops : Fin n → List (Op C S F)} (m : ℕ) (h : ∀ i, f i m = some (g i, m, ops i)) :
    tabulate n f m = some (g, m, (List.finRange n).flatMap ops) := by
  induction n with
  | zero => exact congrArg some (Prod.ext (funext fun i => i.elim0) rfl)
  | succ n ih =>
    have h1 := ih (f := fun i => f i.succ) (fun i => h i.succ)
    have hp : ∀ (a : Fin (n + 1) → α) (k : ℕ),
        (pure a : M C S F _) k = some (a, k, []) := fun _ _ => rfl
    rw [tabulate]
    simp only [bind_apply, h 0, h1, hp, List.append_nil, List.finRange_succ, List.flatMap_cons,
      List.flatMap_map]
    congr 2
    funext i
    refine Fin.cases ?_ (fun j => ?_) i <;> rfl

end Verif.Region
