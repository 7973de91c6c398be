import Verif.LookupRange.Props
import Verif.Region.Check

/-!
# Concrete cases of the theorems on range checks

Both variants, with `K = 6`, over the field of 12289 elements.
-/

namespace Verif.LookupRange.Example

open Verif.Region

/-- The base configuration. -/
abbrev base : Config Unit (Fin 5) := ⟨0, 1, 2, (), .base⟩

theorem base_distinct : base.Distinct := by
  constructor
  · decide
  · decide
  · decide
  · intro q4 q5 h
    cases h

/-- `witnessShortCheck_spec`, with `shortRangeCheck_sound` and `shortRangeCheck_complete` in it: the
three-bit value 7 is accepted, 8 is not. -/
example : ∃ el ops, witnessShortCheck 6 base ((7 : ℕ) : ZMod 12289) 3 0 = some (el, 1, ops) ∧
    ∃ G : Grid Unit (ZMod 12289), Sat (gates 6 base) G ops ∧ SatLookup (lookup 6 base) G ops 0 ∧
      (G.at el.cell).val < 2 ^ 3 := by
  obtain ⟨el, ops, h, -, hs, hc⟩ := witnessShortCheck_spec (K := 6) base_distinct
    (value := ((7 : ℕ) : ZMod 12289)) (s := 3) (n := 0) (by norm_num) (by norm_num) (by norm_num)
  have hh : Honest (gridOf ops) ops := by
    have e : witnessShortCheck 6 base ((7 : ℕ) : ZMod 12289) 3 0 = some (_, _, _) := rfl
    rw [e] at h
    cases h
    exact honest_of_check (by decide +kernel)
  obtain ⟨-, hi⟩ := hc _ hh
  have := hi.2 (by rw [ZMod.val_natCast]; norm_num)
  exact ⟨el, ops, h, _, this.1, this.2, hs _ this.1 this.2⟩

example : ∃ el ops, witnessShortCheck 6 base ((8 : ℕ) : ZMod 12289) 3 0 = some (el, 1, ops) ∧
    ∀ G : Grid Unit (ZMod 12289), Honest G ops →
      ¬ (Sat (gates 6 base) G ops ∧ SatLookup (lookup 6 base) G ops 0) := by
  obtain ⟨el, ops, h, -, -, hc⟩ := witnessShortCheck_spec (K := 6) base_distinct
    (value := ((8 : ℕ) : ZMod 12289)) (s := 3) (n := 0) (by norm_num) (by norm_num) (by norm_num)
  refine ⟨el, ops, h, fun G hG hs => ?_⟩
  have := (hc G hG).2.1 hs
  rw [ZMod.val_natCast] at this
  norm_num at this

/-- `copyCheck_spec`, with `rangeCheck_sound` and `rangeCheck_complete` in it: two words of six bits,
for the value 4000. -/
example : ∃ zs ops, copyCheck 14 13 6 exCfg (⟨⟨0, (), 0⟩, ((4000 : ℕ) : ZMod 12289)⟩ : ACell Unit _) 2
      true 1 = some (zs, 2, ops) ∧
    ∃ G : Grid Unit (ZMod 12289), Sat (gates 6 exCfg) G ops ∧ SatLookup (lookup 6 exCfg) G ops 1 ∧
      ∃ m < 2 ^ 12, G.at ⟨0, (), 0⟩ = ((m : ℕ) : ZMod 12289) := by
  obtain ⟨zs, ops, h, hs, hc⟩ := copyCheck_spec (reprBits := 14) (capacity := 13) (K := 6)
    (numWords := 2) exCfg_distinct
    (element := (⟨⟨0, (), 0⟩, ((4000 : ℕ) : ZMod 12289)⟩ : ACell Unit (ZMod 12289))) (n := 1)
    (by norm_num) (by norm_num) (by norm_num) (by norm_num) (by norm_num)
  have hh : Honest (gridOf (.advice ⟨0, (), 0⟩ ((4000 : ℕ) : ZMod 12289) :: ops))
      (.advice ⟨0, (), 0⟩ ((4000 : ℕ) : ZMod 12289) :: ops) := by
    have e : copyCheck 14 13 6 exCfg (⟨⟨0, (), 0⟩, ((4000 : ℕ) : ZMod 12289)⟩ : ACell Unit _) 2
      true 1 = some (_, _, _) := rfl
    rw [e] at h
    cases h
    exact honest_of_check (by decide +kernel)
  have := (hc _ ⟨fun c v hc => hh.1 c v (List.mem_cons_of_mem _ hc),
    fun c v hc => hh.2 c v (List.mem_cons_of_mem _ hc)⟩ (hh.1 _ _ (List.mem_cons_self ..))).2
    (by rw [ZMod.val_natCast]; norm_num)
  exact ⟨zs, ops, h, _, this.1, this.2, hs _ this.1 this.2⟩

end Verif.LookupRange.Example
