import Verif.Floor.Single

/-!
# The layout does not depend on the witness (C82)

Key generation executes a circuit without witnesses, the prover with them.
-/

namespace Verif.Floor

variable {V : Type}

/-- The call of a closure without its witness. -/
def ROp.erase (z : V) : ROp V → ROp V
  | .advice c o _ => .advice c o z
  | op => op

/-- The call on the `Assignment` without its witness. -/
def COp.erase (z : V) : COp V → COp V
  | .advice c r _ => .advice c r z
  | op => op

/-- Calls without their witnesses. -/
def eraseCalls (z : V) (calls : List (Owner × COp V)) : List (Owner × COp V) :=
  calls.map fun p => (p.1, p.2.erase z)

theorem eraseCalls_append (z : V) (a b : List (Owner × COp V)) :
    eraseCalls z (a ++ b) = eraseCalls z a ++ eraseCalls z b := List.map_append ..

theorem shape_erase (z : V) (i : ℕ) (ops : List (ROp V)) :
    shape i (ops.map (ROp.erase z)) = shape i ops := by
  unfold shape
  rw [List.foldl_map]
  congr 1
  funext s o
  cases o <;> rfl

theorem place_erase (z : V) (starts : List ℕ) (i : ℕ) (o : ROp V) :
    place starts i (o.erase z) = (place starts i o).map (List.map (COp.erase z)) := by
  cases o with
  | enable s o => simp only [ROp.erase, place]; cases starts[i]? <;> rfl
  | advice c o v => simp only [ROp.erase, place]; cases starts[i]? <;> rfl
  | fixed c o v => simp only [ROp.erase, place]; cases starts[i]? <;> rfl
  | constant c v => rfl
  | equal a b => simp only [ROp.erase, place]; cases rowOf starts a <;> cases rowOf starts b <;> rfl
  | inst c k r => simp only [ROp.erase, place]; cases rowOf starts c <;> rfl

theorem constantsOf_erase (z : V) (ops : List (ROp V)) :
    constantsOf (ops.map (ROp.erase z)) = constantsOf ops := by
  unfold constantsOf
  rw [List.filterMap_map]
  congr 1
  funext o
  cases o <;> rfl

theorem mapM_map_some {α β γ δ : Type} (f : α → Option β) (g : γ → Option δ) (e : α → γ) (e' : β → δ)
    (h : ∀ a, g (e a) = (f a).map e') : ∀ l : List α,
    (l.map e).mapM g = (l.mapM f).map (List.map e')
  | [] => rfl
  | a :: l => by
    simp only [List.map_cons, List.mapM_cons, h, mapM_map_some f g e e' h l]
    rcases f a with _ | b
    · rfl
    · rcases l.mapM f with _ | bs <;> rfl

theorem placeRegion_erase (z : V) (starts : List ℕ) (i : ℕ) (ops : List (ROp V)) :
    placeRegion starts i (ops.map (ROp.erase z)) = (placeRegion starts i ops).map (eraseCalls z) := by
  unfold placeRegion
  rw [mapM_map_some _ _ _ _ (place_erase z starts i)]
  rcases ops.mapM (place starts i) with _ | l
  · rfl
  · simp [eraseCalls, List.map_flatten, Function.comp_def]

theorem mapM_ok_mem {α β ε : Type} {f : α → Except ε β} {Q : β → Prop}
    (h : ∀ a b, f a = .ok b → Q b) : ∀ (l : List α) (r : List β), l.mapM f = .ok r → ∀ b ∈ r, Q b
  | [], r, e => by
    cases e
    simp
  | a :: l, r, e => by
    rw [List.mapM_cons] at e
    rcases ha : f a with x | b
    · rw [ha] at e
      cases e
    · rcases hl : l.mapM f with x | bs
      · rw [ha, hl] at e
        cases e
      · rw [ha, hl] at e
        cases e
        intro c hc
        rcases List.mem_cons.1 hc with rfl | hc
        · exact h _ _ ha
        · exact mapM_ok_mem h l bs hl c hc

theorem placeConstant_erase (z : V) {starts : List ℕ} {k col row : ℕ} {v : V} {cell : Cell}
    {l : List (Owner × COp V)} (h : placeConstant starts k col row v cell = .ok l) :
    eraseCalls z l = l := by
  unfold placeConstant at h
  rcases hr : rowOf starts cell with _ | r <;> rw [hr] at h
  · cases h
  · cases h
    rfl

theorem eraseCalls_flatten (z : V) {l : List (List (Owner × COp V))}
    (h : ∀ x ∈ l, eraseCalls z x = x) : eraseCalls z l.flatten = l.flatten := by
  induction l with
  | nil => rfl
  | cons a l ih =>
    rw [List.flatten_cons, eraseCalls_append, h a (by simp), ih fun x hx => h x (by simp [hx])]

theorem assignRegion_erase (z : V) (constants : List ℕ) (s : Single) (ops : List (ROp V)) :
    Single.assignRegion constants s (ops.map (ROp.erase z)) =
      (Single.assignRegion constants s ops).map fun p => (p.1, eraseCalls z p.2) := by
  unfold Single.assignRegion
  simp only [shape_erase, placeRegion_erase, constantsOf_erase]
  generalize s.regions ++ _ = starts
  generalize List.foldl _ s.columns _ = columns
  rcases placeRegion starts s.regions.length ops with _ | calls
  · rfl
  · simp only [Option.map_some, orPanic]
    rcases constants with _ | ⟨c, cs⟩
    · by_cases hc : constantsOf ops = []
      · simp only [hc, if_true]; rfl
      · simp only [hc, if_false]; rfl
    · dsimp only
      rcases hm : (constantsOf ops).zipIdx.mapM fun x =>
        placeConstant starts (s.consts + x.2) c (columns (.fixed c) + x.2) x.1.1 x.1.2 with e | l
      · simp only [bind, Except.bind, hm]; rfl
      · have := eraseCalls_flatten z (mapM_ok_mem (Q := fun x => eraseCalls z x = x)
          (fun a b h => placeConstant_erase z h) _ _ hm)
        simp only [bind, Except.bind, hm, pure, Except.pure, Except.map, eraseCalls_append, this]

/-- **C82**, single pass: the start rows and the calls other than the values of witnesses are the
same whatever the witness. -/
theorem single_erase (z : V) (constants : List ℕ) (regions : List (List (ROp V))) :
    single constants (regions.map (List.map (ROp.erase z))) =
      (single constants regions).map fun p => (p.1, eraseCalls z p.2) := by
  unfold single
  suffices h : ∀ (l : List (List (ROp V))) (acc : Single × List (Owner × COp V)),
      (l.map (List.map (ROp.erase z))).foldlM (fun acc ops => do
        let (s, calls) ← acc.1.assignRegion constants ops
        pure (s, acc.2 ++ calls)) (acc.1, eraseCalls z acc.2) =
      (l.foldlM (fun acc ops => do
        let (s, calls) ← acc.1.assignRegion constants ops
        pure (s, acc.2 ++ calls)) acc : Except Err _).map fun p => (p.1, eraseCalls z p.2) from
    h regions (⟨[], fun _ => 0, 0⟩, [])
  intro l
  induction l with
  | nil => intro acc; rfl
  | cons ops l ih =>
    intro acc
    simp only [List.map_cons, List.foldlM_cons, assignRegion_erase]
    rcases acc.1.assignRegion constants ops with e | ⟨s, calls⟩
    · rfl
    · have := ih (s, acc.2 ++ calls)
      simp only [bind, Except.bind, pure, Except.pure, Except.map, eraseCalls_append] at this ⊢
      exact this

/-- **C82**, V1: the same for the other planner. -/
theorem v1_erase (z : V) (constants : List ℕ) (regions : List (List (ROp V))) :
    v1 constants (regions.map (List.map (ROp.erase z))) =
      (v1 constants regions).map fun p => (p.1, eraseCalls z p.2) := by
  have hz : (regions.map (List.map (ROp.erase z))).zipIdx =
      regions.zipIdx.map fun r => (r.1.map (ROp.erase z), r.2) := by
    rw [List.zipIdx_map]
    rfl
  have hs : ((regions.map (List.map (ROp.erase z))).zipIdx.map fun r => shape r.2 r.1) =
      regions.zipIdx.map fun r => shape r.2 r.1 := by
    rw [hz, List.map_map]
    congr 1
    funext r
    exact shape_erase z _ _
  have hc : (regions.map (List.map (ROp.erase z))).flatMap constantsOf =
      regions.flatMap constantsOf := by
    rw [List.flatMap_map]
    congr 1
    funext r
    exact constantsOf_erase z r
  unfold v1
  simp only [hs, hc]
  rcases hsl : slotInBiggestAdviceFirst (regions.zipIdx.map fun r => shape r.2 r.1) with
    _ | ⟨starts, m⟩
  · simp only [orPanic, bind, Except.bind, Except.map, hsl]
  · have hp : ((regions.map (List.map (ROp.erase z))).zipIdx.mapM fun r => placeRegion starts r.2 r.1)
        = (regions.zipIdx.mapM fun r => placeRegion starts r.2 r.1).map (List.map (eraseCalls z)) := by
      rw [hz]
      exact mapM_map_some _ _ _ _ (fun r => placeRegion_erase z starts r.2 r.1) _
    simp only [orPanic, bind, Except.bind, hsl, hp]
    rcases hpl : regions.zipIdx.mapM fun r => placeRegion starts r.2 r.1 with _ | calls
    · simp only [Option.map_none, Except.map, hpl]
    · simp only [Option.map_some, hpl]
      by_cases hl : (constantPositions m constants).length < (regions.flatMap constantsOf).length
      · rw [if_pos hl, if_pos hl]
        rfl
      · rw [if_neg hl, if_neg hl]
        rcases hm : ((constantPositions m constants).zip (regions.flatMap constantsOf)).zipIdx.mapM
          fun x => placeConstant starts x.2 x.1.1.1 x.1.1.2 x.1.2.1 x.1.2.2 with e | l
        · simp only [Except.map, hm]
        · have := eraseCalls_flatten z (mapM_ok_mem (Q := fun x => eraseCalls z x = x)
            (fun a b h => placeConstant_erase z h) _ _ hm)
          simp only [pure, Except.pure, Except.map, eraseCalls_append, this, hm]
          congr 3
          simp only [eraseCalls, List.map_flatten]
          rfl

/-! ### The property -/

/-- The same call, but for the value of a witness. -/
def ROp.Same : ROp V → ROp V → Prop
  | .advice c o _, .advice c' o' _ => c = c' ∧ o = o'
  | a, b => a = b

/-- The same call, but for the value of a witness, made by the same region or constant. -/
def SameCall : Owner × COp V → Owner × COp V → Prop
  | (w, .advice c r _), (w', .advice c' r' _) => w = w' ∧ c = c' ∧ r = r'
  | a, b => a = b

/-- The same error, or the same start rows and the same calls in the same order but for the values
of witnesses. -/
def SameLayout {α : Type} : Except Err (α × List (Owner × COp V)) →
    Except Err (α × List (Owner × COp V)) → Prop
  | .ok (s, calls), .ok (s', calls') => s = s' ∧ List.Forall₂ SameCall calls calls'
  | .error e, .error e' => e = e'
  | _, _ => False

theorem erase_eq_of_same (z : V) {a b : ROp V} (h : a.Same b) : a.erase z = b.erase z := by
  cases a <;> cases b <;> simp_all [ROp.Same, ROp.erase]

theorem same_of_erase_eq (z : V) {a b : Owner × COp V}
    (h : (a.1, a.2.erase z) = (b.1, b.2.erase z)) : SameCall a b := by
  rcases a with ⟨w, a⟩
  rcases b with ⟨w', b⟩
  cases a <;> cases b <;> simp_all [SameCall, COp.erase]

theorem sameLayout_of {α : Type} (z : V) {x y : Except Err (α × List (Owner × COp V))}
    (h : x.map (fun p => (p.1, eraseCalls z p.2)) = y.map fun p => (p.1, eraseCalls z p.2)) :
    SameLayout x y := by
  rcases x with e | ⟨s, calls⟩ <;> rcases y with e' | ⟨s', calls'⟩ <;>
    simp only [Except.map, reduceCtorEq, Except.error.injEq, Except.ok.injEq, Prod.mk.injEq] at h
  · exact h
  · refine ⟨h.1, ?_⟩
    have h2 := h.2
    unfold eraseCalls at h2
    rw [← List.forall₂_eq_eq_eq, List.forall₂_map_left_iff, List.forall₂_map_right_iff] at h2
    exact h2.imp fun _ _ h => same_of_erase_eq z h

theorem erase_regions (z : V) {regions regions' : List (List (ROp V))}
    (h : List.Forall₂ (List.Forall₂ ROp.Same) regions regions') :
    regions.map (List.map (ROp.erase z)) = regions'.map (List.map (ROp.erase z)) := by
  rw [← List.forall₂_eq_eq_eq, List.forall₂_map_left_iff, List.forall₂_map_right_iff]
  refine h.imp fun a b h => ?_
  rw [← List.forall₂_eq_eq_eq, List.forall₂_map_left_iff, List.forall₂_map_right_iff]
  exact h.imp fun a b h => erase_eq_of_same z h

/-- **C82**: two executions of a circuit that differ in their witnesses only are laid out in the
same way by the single pass planner. -/
theorem single_same [Inhabited V] (constants : List ℕ) {regions regions' : List (List (ROp V))}
    (h : List.Forall₂ (List.Forall₂ ROp.Same) regions regions') :
    SameLayout (single constants regions) (single constants regions') := by
  refine sameLayout_of default ?_
  rw [← single_erase, ← single_erase, erase_regions default h]

/-- **C82**: two executions of a circuit that differ in their witnesses only are laid out in the
same way by the V1 planner. -/
theorem v1_same [Inhabited V] (constants : List ℕ) {regions regions' : List (List (ROp V))}
    (h : List.Forall₂ (List.Forall₂ ROp.Same) regions regions') :
    SameLayout (v1 constants regions) (v1 constants regions') := by
  refine sameLayout_of default ?_
  rw [← v1_erase, ← v1_erase, erase_regions default h]

/-- Two regions with a constant, once with the witnesses `1, 2` and once with `3, 4`. -/
example : List.Forall₂ (List.Forall₂ ROp.Same)
    [[ROp.enable 0 0, .advice 0 0 1, .constant ⟨0, 0, .advice 0⟩ 7], [.advice 0 0 2]]
    [[ROp.enable 0 0, .advice 0 0 3, .constant ⟨0, 0, .advice 0⟩ (7 : ℕ)], [.advice 0 0 4]] := by
  simp [ROp.Same]

end Verif.Floor
