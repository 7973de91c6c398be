import Verif.Sha256.Sound
import Verif.Region.Consistent

/-!
# Running layout programs while watching their operations
-/

namespace Verif.Sha256

open Verif.Region Col

variable {F α β : Type} [Field F]

/-- An operation is satisfied by an assignment. -/
def SatOp (G : Grid Col F) : Op Col Sel F → Prop
  | .advice _ _ => True
  | .fixed c v => G.at c = v
  | .enable s reg row => ∀ g ∈ (gates : Gates Col Sel F), g.1 = s →
      ∀ p ∈ g.2 (G.query reg row), p = 0
  | .equal a b => G.at a = G.at b
  | .const c v => G.at c = v

/-- The witness of an operation is the one of an assignment. -/
def HonOp (G : Grid Col F) : Op Col Sel F → Prop
  | .advice c v => G.at c = v
  | .fixed c v => G.at c = v
  | _ => True

theorem sat_of {G : Grid Col F} {ops : List (Op Col Sel F)} (h : ∀ op ∈ ops, SatOp G op) :
    Sat gates G ops where
  gates := fun g hg reg row he => h _ he g hg rfl
  equal := fun _ _ he => h _ he
  const := fun _ _ he => h _ he
  fixed := fun _ _ he => h _ he

theorem honest_of {G : Grid Col F} {ops : List (Op Col Sel F)} (h : ∀ op ∈ ops, HonOp G op) :
    Honest G ops :=
  ⟨fun _ _ he => h _ he, fun _ _ he => h _ he⟩

theorem gates_nodup : ((gates : Gates Col Sel F).map Prod.fst).Nodup := by
  have : (gates : Gates Col Sel F).map Prod.fst = [.word, .dec0, .dec1, .dec2, .dec3, .ls0, .ls0v2,
    .ls1v2, .ls1, .abcd, .efgh, .us0, .us1, .ch, .chNeg, .maj, .hPrime, .aNew, .eNew, .digest] := rfl
  rw [this]
  decide

theorem satOp_enable {G : Grid Col F} {s : Sel} {f : (Col → ℤ → F) → List F} {reg : ℕ} {row : ℤ}
    (i : ℕ) (hi : (gates : Gates Col Sel F)[i]? = some (s, f))
    (h : ∀ p ∈ f (G.query reg row), p = 0) : SatOp G (.enable s reg row) := by
  intro g hg e
  have := List.inj_on_of_nodup_map (gates_nodup (F := F)) hg (List.mem_of_getElem? hi) e
  subst this
  exact h

/-- A program succeeds, and its operations satisfy a predicate. -/
def Runs (P : Op Col Sel F → Prop) (x : M Col Sel F α) (n : ℕ) (a : α) (n' : ℕ) : Prop :=
  ∃ ops, x n = some (a, n', ops) ∧ ∀ op ∈ ops, P op

variable {P : Op Col Sel F → Prop}

theorem Runs.pure (a : α) (n : ℕ) : Runs P (pure a) n a n :=
  ⟨[], rfl, by simp⟩

theorem Runs.bind {x : M Col Sel F α} {f : α → M Col Sel F β} {n n' n'' : ℕ} {a : α} {b : β}
    (hx : Runs P x n a n') (hf : Runs P (f a) n' b n'') : Runs P (x >>= f) n b n'' := by
  obtain ⟨o1, e1, h1⟩ := hx
  obtain ⟨o2, e2, h2⟩ := hf
  refine ⟨o1 ++ o2, bind_of e1 e2, ?_⟩
  intro op hop
  rcases List.mem_append.1 hop with h | h
  · exact h1 _ h
  · exact h2 _ h

theorem Runs.unwrap {x : Option α} {a : α} (h : x = some a) (n : ℕ) :
    Runs P (unwrap x) n a n := by
  subst h
  exact ⟨[], rfl, by simp⟩

theorem Runs.assert {c : Prop} [Decidable c] (h : c) (n : ℕ) : Runs P (assert c) n () n :=
  ⟨[], assert_of h n, by simp⟩

theorem Runs.wr {x : Wr F α} (h : ∀ op ∈ x.2, P op) (n : ℕ) : Runs P x.run n x.1 n :=
  ⟨x.2, rfl, h⟩

theorem Runs.region {f : ℕ → M Col Sel F α} {n n' : ℕ} {a : α} (h : Runs P (f n) (n + 1) a n') :
    Runs P (assignRegion f) n a n' := h

/-- A loop over consecutive numbers. -/
theorem Runs.foldlM {f : β → ℕ → M Col Sel F β} {st : ℕ → β} {n : ℕ} (s m : ℕ)
    (h : ∀ i, s ≤ i → i < s + m → Runs P (f (st i) i) n (st (i + 1)) n) :
    Runs P ((List.range' s m).foldlM f (st s)) n (st (s + m)) n := by
  induction m generalizing s with
  | zero => exact Runs.pure _ _
  | succ m ih =>
    rw [List.range'_succ, List.foldlM_cons]
    refine Runs.bind (h s le_rfl (by omega)) ?_
    have := ih (s + 1) (fun i h1 h2 => h i (by omega) (by omega))
    rwa [show s + 1 + m = s + (m + 1) by omega] at this

/-- A loop over the elements of a list with their indices. -/
theorem Runs.foldlM_zipIdx {γ : Type} {f : β → γ × ℕ → M Col Sel F β} {st : ℕ → β} {n : ℕ}
    (l : List γ) (s : ℕ)
    (h : ∀ i (x : γ), l[i]? = some x → Runs P (f (st (s + i)) (x, s + i)) n (st (s + i + 1)) n) :
    Runs P ((l.zipIdx s).foldlM f (st s)) n (st (s + l.length)) n := by
  induction l generalizing s with
  | nil => exact Runs.pure _ _
  | cons a l ih =>
    rw [List.zipIdx_cons, List.foldlM_cons]
    refine Runs.bind (by simpa using h 0 a rfl) ?_
    have := ih (s + 1) (fun i x hx => by
      have := h (i + 1) x (by simpa using hx)
      rwa [show s + (i + 1) = s + 1 + i by omega] at this)
    rwa [show s + 1 + l.length = s + (a :: l).length by simp; omega] at this

theorem Runs.mono {P Q : Op Col Sel F → Prop} {x : M Col Sel F α} {n n' : ℕ} {a : α}
    (h : Runs P x n a n') (hPQ : ∀ op, P op → Q op) : Runs Q x n a n' := by
  obtain ⟨ops, e, h⟩ := h
  exact ⟨ops, e, fun op hop => hPQ _ (h _ hop)⟩

/-- All operations of a piece of code satisfy a predicate. -/
def All (P : Op Col Sel F → Prop) (x : Wr F α) : Prop := ∀ op ∈ x.2, P op

theorem All.bind {x : Wr F α} {f : α → Wr F β} (hx : All P x) (hf : All P (f x.1)) :
    All P (x >>= f) := by
  intro op hop
  rcases List.mem_append.1 hop with h | h
  · exact hx _ h
  · exact hf _ h

theorem All.pure (a : α) : All P (pure a : Wr F α) := by
  intro op hop
  cases hop

theorem All.assign {reg : ℕ} {col : Col} {row v : ℕ} (h : P (.advice ⟨reg, col, row⟩ (v : F))) :
    All P (assignBits reg col row v : Wr F ABits) := by
  intro op hop
  rw [List.mem_singleton.1 hop]
  exact h

theorem All.copy {a : ABits} {reg : ℕ} {col : Col} {row : ℕ}
    (h : P (.advice ⟨reg, col, row⟩ (a.bits : F))) (h' : P (.equal ⟨reg, col, row⟩ a.cell)) :
    All P (a.copy reg col row : Wr F ABits) := by
  intro op hop
  rcases List.mem_cons.1 hop with rfl | hop
  · exact h
  · rw [List.mem_singleton.1 hop]
    exact h'

theorem All.enableSel {s : Sel} {reg row : ℕ} (h : P (.enable s reg row)) :
    All P (enableSel s reg row : Wr F Unit) := by
  intro op hop
  rw [List.mem_singleton.1 hop]
  exact h

theorem All.withLookup {reg row len v : ℕ} (h0 : P (.advice ⟨reg, a0, row⟩ ((getTag v : ℕ) : F)))
    (h1 : P (.advice ⟨reg, a1, row⟩ ((v : ℕ) : F)))
    (h2 : P (.advice ⟨reg, a2, row⟩ ((spreadBits len v : ℕ) : F))) :
    All P (withLookup reg row len v : Wr F SpreadVar) :=
  All.bind (All.assign h0) (All.bind (All.assign h1) (All.bind (All.assign h2) (All.pure _)))

theorem All.withoutLookup {reg : ℕ} {c c' : Col} {row row' len v : ℕ}
    (h1 : P (.advice ⟨reg, c, row⟩ ((v : ℕ) : F)))
    (h2 : P (.advice ⟨reg, c', row'⟩ ((spreadBits len v : ℕ) : F))) :
    All P (withoutLookup reg c row c' row' len v : Wr F SpreadVar) :=
  All.bind (All.assign h1) (All.bind (All.assign h2) (All.pure _))

/-- The operations of `assign_spread_outputs`, for a sum `r` equal to another expression `r'` of
the same number. -/
theorem All.outputs {reg row r : ℕ} (r' : ℕ) (hr : r = r')
    (e0 : P (.advice ⟨reg, a0, (row - 1 : ℕ)⟩ ((getTag (evLo r') : ℕ) : F)))
    (e1 : P (.advice ⟨reg, a1, (row - 1 : ℕ)⟩ ((evLo r' : ℕ) : F)))
    (e2 : P (.advice ⟨reg, a2, (row - 1 : ℕ)⟩ ((spreadBits 16 (evLo r') : ℕ) : F)))
    (f0 : P (.advice ⟨reg, a0, row⟩ ((getTag (odLo r') : ℕ) : F)))
    (f1 : P (.advice ⟨reg, a1, row⟩ ((odLo r' : ℕ) : F)))
    (f2 : P (.advice ⟨reg, a2, row⟩ ((spreadBits 16 (odLo r') : ℕ) : F)))
    (g0 : P (.advice ⟨reg, a0, (row + 1 : ℕ)⟩ ((getTag (evHi r') : ℕ) : F)))
    (g1 : P (.advice ⟨reg, a1, (row + 1 : ℕ)⟩ ((evHi r' : ℕ) : F)))
    (g2 : P (.advice ⟨reg, a2, (row + 1 : ℕ)⟩ ((spreadBits 16 (evHi r') : ℕ) : F)))
    (k0 : P (.advice ⟨reg, a0, (row + 2 : ℕ)⟩ ((getTag (odHi r') : ℕ) : F)))
    (k1 : P (.advice ⟨reg, a1, (row + 2 : ℕ)⟩ ((odHi r' : ℕ) : F)))
    (k2 : P (.advice ⟨reg, a2, (row + 2 : ℕ)⟩ ((spreadBits 16 (odHi r') : ℕ) : F)))
    (c1 : P (.advice ⟨reg, a3, row⟩ ((spreadBits 16 (odHi r') : ℕ) : F)))
    (c2 : P (.equal ⟨reg, a3, row⟩ ⟨reg, a2, (row + 2 : ℕ)⟩)) :
    All P (assignSpreadOutputs reg row r : Wr F (Halves × Halves)) := by
  subst hr
  exact All.bind (All.withLookup e0 e1 e2) (All.bind (All.withLookup f0 f1 f2)
    (All.bind (All.withLookup g0 g1 g2) (All.bind (All.withLookup k0 k1 k2)
      (All.bind (All.copy c1 c2) (All.pure _)))))

/-- The operations of `assign_sigma_outputs`. -/
theorem All.sigma {reg row r : ℕ}
    (e0 : P (.advice ⟨reg, a0, (row - 1 : ℕ)⟩ ((getTag (evLo r) : ℕ) : F)))
    (e1 : P (.advice ⟨reg, a1, (row - 1 : ℕ)⟩ ((evLo r : ℕ) : F)))
    (e2 : P (.advice ⟨reg, a2, (row - 1 : ℕ)⟩ ((spreadBits 16 (evLo r) : ℕ) : F)))
    (f0 : P (.advice ⟨reg, a0, row⟩ ((getTag (odLo r) : ℕ) : F)))
    (f1 : P (.advice ⟨reg, a1, row⟩ ((odLo r : ℕ) : F)))
    (f2 : P (.advice ⟨reg, a2, row⟩ ((spreadBits 16 (odLo r) : ℕ) : F)))
    (g0 : P (.advice ⟨reg, a0, (row + 1 : ℕ)⟩ ((getTag (evHi r) : ℕ) : F)))
    (g1 : P (.advice ⟨reg, a1, (row + 1 : ℕ)⟩ ((evHi r : ℕ) : F)))
    (g2 : P (.advice ⟨reg, a2, (row + 1 : ℕ)⟩ ((spreadBits 16 (evHi r) : ℕ) : F)))
    (k0 : P (.advice ⟨reg, a0, (row + 2 : ℕ)⟩ ((getTag (odHi r) : ℕ) : F)))
    (k1 : P (.advice ⟨reg, a1, (row + 2 : ℕ)⟩ ((odHi r : ℕ) : F)))
    (k2 : P (.advice ⟨reg, a2, (row + 2 : ℕ)⟩ ((spreadBits 16 (odHi r) : ℕ) : F)))
    (c1 : P (.advice ⟨reg, a3, row⟩ ((spreadBits 16 (odHi r) : ℕ) : F)))
    (c2 : P (.equal ⟨reg, a3, row⟩ ⟨reg, a2, (row + 2 : ℕ)⟩)) :
    All P (assignSigmaOutputs reg row r : Wr F Halves) :=
  All.bind (All.outputs r rfl e0 e1 e2 f0 f1 f2 g0 g1 g2 k0 k1 k2 c1 c2) (All.pure _)

/-- Splitting a piece of code into its operations. -/
macro "walk" : tactic => `(tactic| repeat' (first
  | with_reducible refine All.bind (All.assign ?_) ?_
  | with_reducible refine All.bind (All.copy ?_ ?_) ?_
  | with_reducible refine All.bind (All.withLookup ?_ ?_ ?_) ?_
  | with_reducible refine All.bind (All.withoutLookup ?_ ?_) ?_
  | with_reducible refine All.bind (All.enableSel ?_) ?_
  | with_reducible refine All.sigma ?_ ?_ ?_ ?_ ?_ ?_ ?_ ?_ ?_ ?_ ?_ ?_ ?_ ?_
  | exact All.pure _))

theorem Runs.all {x : Wr F α} (h : All P x) (n : ℕ) : Runs P x.run n x.1 n := Runs.wr h n

end Verif.Sha256
