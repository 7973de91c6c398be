import Verif.EccApi.Uses
import Verif.EccApi.Sound

/-!
# From the constraints of one chip to those of all chips
-/

namespace Verif.EccApi

open Verif.Region Verif.Ecc Verif.MulFixed

variable {C S : Type} {p q : ℕ} [Fact p.Prime] [Fact q.Prime] {b : ZMod p}
  {advices : Fin 10 → C} {lagrangeCoeffs : Fin 8 → C} {fixedZ : C}
  {rangeCheck : LookupRange.Config C S} {s : Selectors S}

/-- The selectors, numbered. -/
def sel (rangeCheck : LookupRange.Config C S) (s : Selectors S) (i : Fin 20) : S :=
  (s.all ++ [rangeCheck.qLookup, rangeCheck.qRunning, rangeCheck.qBitshift]).get i

theorem Fresh.injective (h : Fresh advices lagrangeCoeffs fixedZ rangeCheck s) :
    Function.Injective (sel rangeCheck s) := by
  have : (s.all ++ [rangeCheck.qLookup, rangeCheck.qRunning, rangeCheck.qBitshift]).Nodup := by
    have h' := h.sels
    unfold Merkle.rangeSels at h'
    rw [← List.append_assoc] at h'
    exact (List.nodup_append.1 h').1
  exact List.nodup_iff_injective_get.1 this

/-- The list a gate is from, and its selector. -/
def Sorted (b : ZMod p) (cfg : Config C S) (f : Fin 20 → S)
    (g : S × ((C → ℤ → ZMod p) → List (ZMod p))) : Prop :=
  (g ∈ WitnessPoint.gates b cfg.witnessPoint ∧ g.1 ∈ [0, 1].map f) ∨
    (g ∈ (AddIncomplete.gates cfg.addIncomplete : Gates C S (ZMod p)) ∧ g.1 ∈ [2].map f) ∨
    (g ∈ (Add.gates cfg.add : Gates C S (ZMod p)) ∧ g.1 ∈ [3].map f) ∨
    (g ∈ (Mul.gates cfg.mul : Gates C S (ZMod p)) ∧
      g.1 ∈ [4, 5, 6, 7, 8, 9, 10, 11, 12].map f) ∨
    (g ∈ (LookupRange.gates 10 cfg.lookup : Gates C S (ZMod p)) ∧ g.1 ∈ [19].map f) ∨
    (g ∈ cfg.mulFixedFull.super.gates b ∧ g.1 ∈ [13].map f) ∨
    (g ∈ FullWidth.gates b cfg.mulFixedFull ∧ g.1 ∈ [14].map f) ∨
    (g ∈ Short.gates b cfg.mulFixedShort ∧ g.1 ∈ [15].map f) ∨
    (g ∈ BaseFieldElem.gates b cfg.mulFixedBaseField ∧ g.1 ∈ [16].map f)

theorem gates_cases {g : S × ((C → ℤ → ZMod p) → List (ZMod p))}
    (h : g ∈ gates b (configure advices lagrangeCoeffs fixedZ rangeCheck s)) :
    Sorted b (configure advices lagrangeCoeffs fixedZ rangeCheck s) (sel rangeCheck s) g := by
  set cfg := configure advices lagrangeCoeffs fixedZ rangeCheck s with hcfg
  set f := sel rangeCheck s with hf
  have hsup : ∀ g, g ∈ cfg.mulFixedFull.super.gates b →
      (g ∈ cfg.mulFixedFull.super.gates b ∧ g.1 ∈ [13].map f) ∨
      (g ∈ (Add.gates cfg.add : Gates C S (ZMod p)) ∧ g.1 ∈ [3].map f) ∨
      (g ∈ (AddIncomplete.gates cfg.addIncomplete : Gates C S (ZMod p)) ∧ g.1 ∈ [2].map f) := by
    intro g hg
    rcases MulFixed.gates_cases hg with h | h | h
    · exact .inl ⟨hg, List.mem_singleton.2 h⟩
    · exact .inr (.inl ⟨h.2, List.mem_singleton.2 h.1⟩)
    · exact .inr (.inr ⟨h.2, List.mem_singleton.2 h.1⟩)
  have hsup' : ∀ g, g ∈ cfg.mulFixedFull.super.gates b → Sorted b cfg f g := fun g hg =>
    (hsup g hg).elim (fun k => Or.inr (.inr (.inr (.inr (.inr (.inl k)))))) fun k => k.elim (fun k => Or.inr (.inr (.inl k))) fun k => Or.inr (.inl k)
  simp only [gates, List.mem_append] at h
  rcases h with (((((h | h) | h) | h) | h) | h) | h
  · refine .inl ⟨h, ?_⟩
    rcases List.mem_cons.1 h with rfl | h'
    · exact List.mem_cons_self ..
    · rcases List.mem_singleton.1 h' with rfl
      exact List.mem_cons_of_mem _ (List.mem_cons_self ..)
  · refine .inr (.inl ⟨h, ?_⟩)
    rcases List.mem_singleton.1 h with rfl
    exact List.mem_cons_self ..
  · refine .inr (.inr (.inl ⟨h, ?_⟩))
    rcases List.mem_singleton.1 h with rfl
    exact List.mem_cons_self ..
  · have h0 := h
    simp only [Mul.gates, List.mem_append] at h
    rcases h with (((((h | h) | h) | h) | h) | h) | h
    · refine .inr (.inr (.inl ⟨h, ?_⟩))
      rcases List.mem_singleton.1 h with rfl
      exact List.mem_cons_self ..
    · refine .inr (.inr (.inr (.inl ⟨h0, ?_⟩)))
      have : g.1 ∈ [4, 5, 6].map f := List.mem_map_of_mem (f := Prod.fst) h
      exact List.map_subset f (by decide) this
    · refine .inr (.inr (.inr (.inl ⟨h0, ?_⟩)))
      have : g.1 ∈ [7, 8, 9].map f := List.mem_map_of_mem (f := Prod.fst) h
      exact List.map_subset f (by decide) this
    · refine .inr (.inr (.inr (.inl ⟨h0, ?_⟩)))
      have : g.1 ∈ [10].map f := List.mem_map_of_mem (f := Prod.fst) h
      exact List.map_subset f (by decide) this
    · refine .inr (.inr (.inr (.inl ⟨h0, ?_⟩)))
      have : g.1 ∈ [12].map f := List.mem_map_of_mem (f := Prod.fst) h
      exact List.map_subset f (by decide) this
    · refine .inr (.inr (.inr (.inl ⟨h0, ?_⟩)))
      have : g.1 ∈ [11].map f := List.mem_map_of_mem (f := Prod.fst) h
      exact List.map_subset f (by decide) this
    · refine .inr (.inr (.inr (.inr (.inl ⟨h, ?_⟩))))
      exact List.mem_map_of_mem (f := Prod.fst) h
  · rcases List.mem_cons.1 h with rfl | h'
    · exact .inr (.inr (.inr (.inr (.inr (.inr (.inl ⟨h, List.mem_cons_self ..⟩))))))
    · exact hsup' g h'
  · rcases List.mem_cons.1 h with rfl | h'
    · exact .inr (.inr (.inr (.inr (.inr (.inr (.inr (.inl ⟨h, List.mem_cons_self ..⟩)))))))
    · exact hsup' g h'
  · rcases List.mem_cons.1 h with rfl | h'
    · exact .inr (.inr (.inr (.inr (.inr (.inr (.inr (.inr ⟨h, List.mem_cons_self ..⟩)))))))
    · rcases List.mem_append.1 h' with h' | h'
      · exact .inr (.inr (.inr (.inr (.inl ⟨h', List.mem_map_of_mem (f := Prod.fst) h'⟩))))
      · exact hsup' g h'

section

variable (h : Fresh advices lagrangeCoeffs fixedZ rangeCheck s) {G : Grid C (ZMod p)}
  {ops : List (Op C S (ZMod p))} {I : List (Fin 20)}

include h

theorem not_mem {J : List (Fin 20)} (hd : ∀ i ∈ I, i ∉ J) {x : S} (h1 : x ∈ J.map (sel rangeCheck s))
    (h2 : x ∈ I.map (sel rangeCheck s)) : False := by
  obtain ⟨j, hj, rfl⟩ := List.mem_map.1 h1
  obtain ⟨i, hi, e⟩ := List.mem_map.1 h2
  have := h.injective e
  subst this
  exact hd _ hi hj

/-- The other gates are switched off. -/
theorem lift {sub : Gates C S (ZMod p)}
    (hen : ∀ x reg row, .enable x reg row ∈ ops → x ∈ I.map (sel rangeCheck s))
    (hsub : ∀ g ∈ gates b (configure advices lagrangeCoeffs fixedZ rangeCheck s),
      g.1 ∈ I.map (sel rangeCheck s) → g ∈ sub) (hs : Sat sub G ops) :
    Sat (gates b (configure advices lagrangeCoeffs fixedZ rangeCheck s)) G ops :=
  ⟨fun g hg reg row hm => hs.gates g (hsub g hg (hen _ _ _ hm)) reg row hm, hs.equal, hs.const, hs.fixed⟩

theorem lift_wp (hen : ∀ x reg row, .enable x reg row ∈ ops → x ∈ [0, 1].map (sel rangeCheck s))
    (hs : Sat (WitnessPoint.gates b
      (configure advices lagrangeCoeffs fixedZ rangeCheck s).witnessPoint) G ops) :
    Sat (gates b (configure advices lagrangeCoeffs fixedZ rangeCheck s)) G ops := by
  refine lift h hen (fun g hg hm => ?_) hs
  rcases gates_cases hg with k | k | k | k | k | k | k | k | k
  · exact k.1
  all_goals exact (not_mem h (by decide) k.2 hm).elim

theorem lift_addIncomplete (hen : ∀ x reg row, .enable x reg row ∈ ops → x ∈ [2].map (sel rangeCheck s))
    (hs : Sat (AddIncomplete.gates
      (configure advices lagrangeCoeffs fixedZ rangeCheck s).addIncomplete) G ops) :
    Sat (gates b (configure advices lagrangeCoeffs fixedZ rangeCheck s)) G ops := by
  refine lift h hen (fun g hg hm => ?_) hs
  rcases gates_cases hg with k | k | k | k | k | k | k | k | k
  · exact (not_mem h (by decide) k.2 hm).elim
  · exact k.1
  all_goals exact (not_mem h (by decide) k.2 hm).elim

theorem lift_add (hen : ∀ x reg row, .enable x reg row ∈ ops → x ∈ [3].map (sel rangeCheck s))
    (hs : Sat (Add.gates (configure advices lagrangeCoeffs fixedZ rangeCheck s).add) G ops) :
    Sat (gates b (configure advices lagrangeCoeffs fixedZ rangeCheck s)) G ops := by
  refine lift h hen (fun g hg hm => ?_) hs
  rcases gates_cases hg with k | k | k | k | k | k | k | k | k
  · exact (not_mem h (by decide) k.2 hm).elim
  · exact (not_mem h (by decide) k.2 hm).elim
  · exact k.1
  all_goals exact (not_mem h (by decide) k.2 hm).elim

theorem lift_mul (hen : ∀ x reg row, .enable x reg row ∈ ops →
      x ∈ [3, 4, 5, 6, 7, 8, 9, 10, 11, 12, 17, 18].map (sel rangeCheck s))
    (hs : Sat (Mul.gates (configure advices lagrangeCoeffs fixedZ rangeCheck s).mul) G ops) :
    Sat (gates b (configure advices lagrangeCoeffs fixedZ rangeCheck s)) G ops := by
  refine lift h hen (fun g hg hm => ?_) hs
  rcases gates_cases hg with k | k | k | k | k | k | k | k | k
  · exact (not_mem h (by decide) k.2 hm).elim
  · exact (not_mem h (by decide) k.2 hm).elim
  · simp only [Mul.gates, List.mem_append]
    exact .inl (.inl (.inl (.inl (.inl (.inl k.1)))))
  · exact k.1
  all_goals exact (not_mem h (by decide) k.2 hm).elim

theorem lift_full (hen : ∀ x reg row, .enable x reg row ∈ ops →
      x ∈ [14, 13, 3, 2].map (sel rangeCheck s))
    (hs : Sat (FullWidth.gates b
      (configure advices lagrangeCoeffs fixedZ rangeCheck s).mulFixedFull) G ops) :
    Sat (gates b (configure advices lagrangeCoeffs fixedZ rangeCheck s)) G ops := by
  refine lift h hen (fun g hg hm => ?_) hs
  rcases gates_cases hg with k | k | k | k | k | k | k | k | k
  · exact (not_mem h (by decide) k.2 hm).elim
  · refine List.mem_cons_of_mem _ (List.mem_cons_of_mem _ (List.mem_append_right _ k.1))
  · refine List.mem_cons_of_mem _ (List.mem_cons_of_mem _ (List.mem_append_left _
      (List.mem_append_right _ k.1)))
  · exact (not_mem h (by decide) k.2 hm).elim
  · exact (not_mem h (by decide) k.2 hm).elim
  · exact List.mem_cons_of_mem _ k.1
  · exact k.1
  all_goals exact (not_mem h (by decide) k.2 hm).elim

theorem lift_short (hen : ∀ x reg row, .enable x reg row ∈ ops →
      x ∈ [15, 13, 3, 2].map (sel rangeCheck s))
    (hs : Sat (Short.gates b
      (configure advices lagrangeCoeffs fixedZ rangeCheck s).mulFixedShort) G ops) :
    Sat (gates b (configure advices lagrangeCoeffs fixedZ rangeCheck s)) G ops := by
  refine lift h hen (fun g hg hm => ?_) hs
  rcases gates_cases hg with k | k | k | k | k | k | k | k | k
  · exact (not_mem h (by decide) k.2 hm).elim
  · refine List.mem_cons_of_mem _ (List.mem_cons_of_mem _ (List.mem_append_right _ k.1))
  · refine List.mem_cons_of_mem _ (List.mem_cons_of_mem _ (List.mem_append_left _
      (List.mem_append_right _ k.1)))
  · exact (not_mem h (by decide) k.2 hm).elim
  · exact (not_mem h (by decide) k.2 hm).elim
  · exact List.mem_cons_of_mem _ k.1
  · exact (not_mem h (by decide) k.2 hm).elim
  · exact k.1
  all_goals exact (not_mem h (by decide) k.2 hm).elim

theorem lift_base (hen : ∀ x reg row, .enable x reg row ∈ ops →
      x ∈ [16, 13, 3, 2, 17, 18].map (sel rangeCheck s))
    (hs : Sat (BaseFieldElem.gates b
      (configure advices lagrangeCoeffs fixedZ rangeCheck s).mulFixedBaseField) G ops) :
    Sat (gates b (configure advices lagrangeCoeffs fixedZ rangeCheck s)) G ops := by
  refine lift h hen (fun g hg hm => ?_) hs
  rcases gates_cases hg with k | k | k | k | k | k | k | k | k
  · exact (not_mem h (by decide) k.2 hm).elim
  · refine List.mem_cons_of_mem _ (List.mem_append_right _ (List.mem_cons_of_mem _
      (List.mem_append_right _ k.1)))
  · refine List.mem_cons_of_mem _ (List.mem_append_right _ (List.mem_cons_of_mem _
      (List.mem_append_left _ (List.mem_append_right _ k.1))))
  · exact (not_mem h (by decide) k.2 hm).elim
  · exact (not_mem h (by decide) k.2 hm).elim
  · exact List.mem_cons_of_mem _ (List.mem_append_right _ k.1)
  · exact (not_mem h (by decide) k.2 hm).elim
  · exact (not_mem h (by decide) k.2 hm).elim
  · exact k.1

/-- Without the lookup's selector there is nothing to look up. -/
theorem no_lookup (hen : ∀ x reg row, .enable x reg row ∈ ops → x ∈ I.map (sel rangeCheck s))
    (hI : 17 ∉ I) (reg : ℕ) : SatLookup (LookupRange.lookup 10 rangeCheck) G ops reg := by
  intro row
  refine LookupRange.lookup_off 10 rangeCheck (if_neg fun hm => ?_)
  obtain ⟨i, hi, e⟩ := List.mem_map.1 (hen _ _ _ hm)
  have : i = 17 := h.injective (e.trans (show rangeCheck.qLookup = sel rangeCheck s 17 from rfl))
  exact hI (this ▸ hi)

end

end Verif.EccApi
