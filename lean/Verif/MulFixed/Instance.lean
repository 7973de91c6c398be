import Verif.MulFixed.Example

/-!
# Fixed-base multiplication of the generator of Pallas, in the columns of the chip

The theorems of the other files with all their conditions discharged: the tables are those computed
by `find_zs_and_us` and `compute_lagrange_coeffs`, the columns are arranged as by
`EccChip::configure`.
-/

namespace Verif.MulFixed.Example

open Verif.Region Verif.Ecc Verif.Utilities Verif.RunningSum Verif.Pasta

/-- The columns as arranged by `EccChip::configure`: ecc/chip.rs 279-305.  Columns 0 to 9 are the
advice columns, 10 to 17 the Lagrange coefficients, 18 the column of `z`. -/
def columns : MulFixed.Config ℕ ℕ :=
  { runningSum := ⟨0, 4⟩, lagrangeCoeffs := fun i => 10 + i, fixedZ := 18, window := 4, u := 5,
    add := ⟨1, 4, 0, 1, 2, 3, 5, 6, 7, 8⟩, addIncomplete := ⟨2, 0, 1, 2, 3⟩ }

theorem columns_configured : columns.Configured := by
  constructor <;> decide

theorem columns_distinct : columns.Distinct := by
  constructor <;> decide

/-- ecc/chip.rs 306-308. -/
def full : FullWidth.Config ℕ ℕ := ⟨3, columns⟩

/-- ecc/chip.rs 310-312. -/
def short : Short.Config ℕ ℕ := ⟨3, columns⟩

/-- ecc/chip.rs 314-320. -/
def field : BaseFieldElem.Config ℕ ℕ := ⟨3, fun i => 6 + i, ⟨4, 5, 6, 9, .base⟩, columns⟩

theorem field_distinct : field.Distinct := by
  refine ⟨columns_distinct, ⟨by decide, by decide, by decide, fun _ _ h => by cases h⟩, by decide,
    by decide, by decide⟩

/-- A table for the generator of Pallas exists, and with it every full-width scalar is multiplied
correctly, and no assignment satisfying the constraints yields another multiple. -/
theorem pallas_full : ∃ base : FixedPoint (5 : ZMod pallas), base.generator = pallasGen ∧
    (∀ (scalar : ZMod vesta) (n : ℕ), ∃ r ws ops,
      FullWidth.assign full scalar base n = some ((r, ws), n + 1 + 1, ops) ∧
      Val r (scalar.val • pallasGen) ∧
      (∃ G, Honest G ops ∧ Sat (FullWidth.gates 5 full) G ops ∧ Holds G r (scalar.val • pallasGen)) ∧
      ∀ G, Sat (FullWidth.gates 5 full) G ops → ∃ d : ℕ → ℕ, (∀ i < numWindows, d i < 8) ∧
        ws.map (fun c => G.at c.cell) = (List.range numWindows).map (fun i => (d i : ZMod pallas)) ∧
        Holds G r (value d numWindows • pallasGen)) := by
  obtain ⟨base, hgen, -, -, hv⟩ := tables (N := 85) (by decide) fit_full
  have hB : Large base.generator numWindows := by rw [hgen]; exact large (by decide +kernel)
  have hq : vesta • base.generator = 0 := pallas_order _
  refine ⟨base, hgen, fun scalar n => ?_⟩
  obtain ⟨r, ws, ops, hrun, hval, hcon, -, hsat⟩ := FullWidth.assign_complete pallas_good hv hB hq
    (by decide +kernel) (by decide +kernel) (by decide +kernel) (cfg := full) columns_configured
    columns_distinct (by decide) scalar n
  obtain ⟨G, hG, -⟩ := hcon.exists_honest (fun _ _ _ => 0)
  rw [hgen] at hval
  refine ⟨r, ws, ops, hrun, hval, ⟨G, hG, (hsat G hG).1, ?_⟩, fun G hs => ?_⟩
  · have := (hsat G hG).2.1
    rwa [hgen] at this
  · have := FullWidth.assign_sound pallas_good hB hv hrun hs
    rwa [hgen] at this

/-- The same for a short signed scalar. -/
theorem pallas_short : ∃ base : FixedPoint (5 : ZMod pallas), base.generator = pallasGen ∧
    (∀ (magnitude sign : ACell ℕ (ZMod pallas)) (neg : Bool) (n : ℕ), magnitude.value.val < 2 ^ 64 →
      sign.value = (if neg then -1 else 1) → ∃ r zs ops,
      Short.assign vesta short magnitude sign base n = some ((r, zs), n + 1 + 1, ops) ∧
      Val r (Short.target neg (magnitude.value.val • pallasGen)) ∧ Consistent ops ∧
      (∀ G, Honest G ops → G.at magnitude.cell = magnitude.value → G.at sign.cell = sign.value →
        Sat (Short.gates 5 short) G ops) ∧
      ∀ G, Sat (Short.gates 5 short) G ops →
        ∃ m < 2 ^ 64, G.at magnitude.cell = ((m : ℕ) : ZMod pallas) ∧
          ((G.at sign.cell = 1 ∧ Holds G r (m • pallasGen)) ∨
            (G.at sign.cell = -1 ∧ Holds G r (-(m • pallasGen))))) := by
  obtain ⟨base, hgen, -, -, hv⟩ := tables (N := 22) (by decide) fit_short
  have hB : Large base.generator numWindowsShort := by rw [hgen]; exact large (by decide +kernel)
  have hq : vesta • base.generator = 0 := pallas_order _
  refine ⟨base, hgen, fun magnitude sign neg n hm hsign => ?_⟩
  obtain ⟨r, zs, ops, hrun, hval, hcon, hsat⟩ := Short.assign_complete pallas_good hv hB hq
    (by decide +kernel) (by decide +kernel) (cfg := short) columns_configured columns_distinct (by decide)
    hm hsign n
  rw [hgen] at hval
  refine ⟨r, zs, ops, hrun, hval, hcon, fun G hG h1 h2 => (hsat G hG h1 h2).1, fun G hs => ?_⟩
  have := Short.assign_sound pallas_good (by decide +kernel) hB hv (cfg := short) columns_configured hrun hs
  rwa [hgen] at this

/-- The same for an element of the base field. -/
theorem pallas_field : ∃ base : FixedPoint (5 : ZMod pallas), base.generator = pallasGen ∧
    (∀ (scalar : ACell ℕ (ZMod pallas)) (n : ℕ), ∃ r ops,
      BaseFieldElem.assign vesta field scalar base n = some (r, n + 4, ops) ∧
      Val r (scalar.value.val • pallasGen) ∧ Consistent ops ∧
      (∀ G, Honest G ops → G.at scalar.cell = scalar.value →
        Sat (BaseFieldElem.gates 5 field) G ops ∧
          ∀ reg, SatLookup (LookupRange.lookup 10 field.lookup) G ops reg) ∧
      ∀ G, Sat (BaseFieldElem.gates 5 field) G ops →
        (∀ reg, SatLookup (LookupRange.lookup 10 field.lookup) G ops reg) →
        Holds G r ((G.at scalar.cell).val • pallasGen)) := by
  obtain ⟨base, hgen, -, -, hv⟩ := tables (N := 85) (by decide) fit_full
  have hB : Large base.generator numWindows := by rw [hgen]; exact large (by decide +kernel)
  have hq : vesta • base.generator = 0 := pallas_order _
  refine ⟨base, hgen, fun scalar n => ?_⟩
  obtain ⟨r, ops, hrun, hval, hcon, hsat⟩ := BaseFieldElem.assign_complete pallas_good
    (by decide +kernel) hv hB hq (by decide +kernel) (cfg := field) columns_configured field_distinct
    scalar n
  rw [hgen] at hval
  refine ⟨r, ops, hrun, hval, hcon, fun G hG h1 => ⟨(hsat G hG h1).1, (hsat G hG h1).2.1⟩,
    fun G hs hl => ?_⟩
  have := BaseFieldElem.assign_sound pallas_good (by decide +kernel) hB hv (cfg := field)
    columns_configured field_distinct.lookup hrun (PartOf.self _ _ _) hs hl
  rwa [hgen] at this

/-- `mul_sign` at a concrete point. -/
example (n : ℕ) : ∃ r ops, Short.assignScalarSign short ⟨⟨0, 9, 0⟩, -1⟩
      ⟨⟨⟨0, 8, 0⟩, (enc pallasGen).1⟩, ⟨⟨0, 8, 1⟩, (enc pallasGen).2⟩⟩ n = some (r, n + 1, ops) ∧
    Val r (-pallasGen) := by
  obtain ⟨r, ops, h, hv, -⟩ := Short.assignScalarSign_complete pallas_good (by decide +kernel)
    (cfg := short) (by decide) (by decide) (sign := ⟨⟨0, 9, 0⟩, -1⟩) (neg := true) (by simp)
    (point := ⟨⟨⟨0, 8, 0⟩, (enc pallasGen).1⟩, ⟨⟨0, 8, 1⟩, (enc pallasGen).2⟩⟩) (P := pallasGen) rfl n
  exact ⟨r, ops, h, hv⟩

end Verif.MulFixed.Example
