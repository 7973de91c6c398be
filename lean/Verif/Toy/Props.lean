import Verif.Transcript.Props
import Verif.Plonk.Props

/-!
# A computable group with encodings

The additive group of the field with 97 elements, a point `p ≠ 0` having the coordinates
`(p², p)`.  Only used in examples: concrete runs of prover and verifier can be evaluated by the
kernel.
-/

namespace Verif.Toy

open Verif.Msm Verif.Transcript

abbrev G := ZMod 97

def coords : Coords G G where
  coords p := if p = 0 then none else some (p * p, p)
  fromXY _ y := some y

def repr (x : G) : Bytes := pad x.val

def fromRepr (bs : Bytes) : Option G :=
  match bs with
  | [] => none
  | b :: _ => if b.toNat < 97 ∧ pad b.toNat = bs then some (b.toNat : G) else none

def enc (hash : Bytes → Bytes) (uniform : Bytes → G) : Enc G G G where
  toCoords := coords
  baseRepr := repr
  scalarRepr := repr
  scalarFromRepr := fromRepr
  pointBytes := repr
  pointFromBytes := fromRepr
  blake2b := hash
  fromUniform := uniform

theorem repr_inj (x y : G) (h : repr x = repr y) : x = y :=
  ZMod.val_injective 97
    (pad_inj (by have := ZMod.val_lt x; omega) (by have := ZMod.val_lt y; omega) h)

theorem fromRepr_iff (bs : Bytes) (s : G) : fromRepr bs = some s ↔ repr s = bs := by
  have hpad : ∀ b : UInt8, UInt8.ofNat b.toNat = b := fun b => by simp
  constructor
  · intro h
    rcases bs with _ | ⟨b, t⟩
    · cases h
    · simp only [fromRepr] at h
      split_ifs at h with hb
      cases h
      rw [← hb.2]
      unfold repr
      rw [ZMod.val_natCast_of_lt hb.1]
  · rintro rfl
    have hlt := ZMod.val_lt s
    have h1 : (UInt8.ofNat s.val).toNat = s.val := by
      simp only [UInt8.toNat_ofNat']; omega
    have h2 : fromRepr (repr s) = if (UInt8.ofNat s.val).toNat < 97 ∧
        pad (UInt8.ofNat s.val).toNat = repr s then some ((UInt8.ofNat s.val).toNat : G) else none :=
      rfl
    rw [h2, h1, if_pos ⟨hlt, rfl⟩, ZMod.natCast_zmod_val]

theorem enc_valid (hash : Bytes → Bytes) (uniform : Bytes → G) : (enc hash uniform).Valid where
  coords_valid := by
    constructor
    · intro p; simp only [enc, coords]; split_ifs with h <;> simp [h]
    · intro p x y h; simp only [enc, coords] at h ⊢; split_ifs at h; cases h; rfl
    · intro p x y h
      simp only [enc, coords] at h ⊢
      split_ifs at h with hp
      cases h
      rw [if_neg (by simpa using hp)]; simp
    · intro p q x y y' h h'
      simp only [enc, coords] at h h'
      split_ifs at h h'
      simp only [Option.some.injEq, Prod.mk.injEq] at h h'
      obtain ⟨h1, rfl⟩ := h
      obtain ⟨h2, rfl⟩ := h'
      exact mul_self_eq_mul_self_iff.1 (h1.trans h2.symm)
  base_len x := by simp [enc, repr, pad]
  base_inj := repr_inj
  scalar_len x := by simp [enc, repr, pad]
  scalar_iff := fromRepr_iff
  point_len p := by simp [enc, repr, pad]
  point_iff := fromRepr_iff

/-- A hash for the examples: the number of bytes absorbed and their sum. -/
def sumHash (bs : Bytes) : Bytes := [UInt8.ofNat bs.length, bs.foldl (fun a b => a * 3 + b) 0]

def uniform (bs : Bytes) : G := (bs.map fun b => (b.toNat : G)).foldl (fun a b => a * 5 + b) 0

end Verif.Toy
