import Verif.Pasta.Curve
import Verif.Mul.Props
import Verif.Domain.Props
import Mathlib.RingTheory.RootsOfUnity.PrimitiveRoots
import Mathlib.Algebra.Module.ZMod

/-!
# The hypotheses on the Pasta curves hold
-/

namespace Verif.Pasta

open Verif.Ecc

theorem pow_ne_one {n f a e : ℕ} (h : e < 2 ^ f ∧ powMod n f a e 1 % n ≠ 1 % n) :
    (a : ZMod n) ^ e ≠ 1 := by
  have := pow_ne_of 1 h
  rwa [Nat.cast_one] at this

/-- The curve Pallas, `y² = x³ + 5`, has no point with a zero coordinate. -/
theorem pallas_good : Good (5 : ZMod pallas) := by
  have h := good_of (p := pallas) (b := 5) (by decide +kernel)
    (pow_ne_one (f := 256) (by decide +kernel)) (by decide +kernel)
    (by rw [Ne, ZMod.natCast_eq_zero_iff]; decide +kernel) (by decide +kernel) (by
      have e : (-((5 : ℕ) : ZMod pallas)) = ((pallas - 5 : ℕ) : ZMod pallas) :=
        (cast_sub (by decide +kernel)).symm
      rw [e]
      exact pow_ne_one (f := 256) (by decide +kernel))
  exact_mod_cast h

/-- The curve Vesta, `y² = x³ + 5`, has no point with a zero coordinate. -/
theorem vesta_good : Good (5 : ZMod vesta) := by
  have h := good_of (p := vesta) (b := 5) (by decide +kernel)
    (pow_ne_one (f := 256) (by decide +kernel)) (by decide +kernel)
    (by rw [Ne, ZMod.natCast_eq_zero_iff]; decide +kernel) (by decide +kernel) (by
      have e : (-((5 : ℕ) : ZMod vesta)) = ((vesta - 5 : ℕ) : ZMod vesta) :=
        (cast_sub (by decide +kernel)).symm
      rw [e]
      exact pow_ne_one (f := 256) (by decide +kernel))
  exact_mod_cast h

/-- The generator `(-1, 2)` of Pallas. -/
def pallasGen : Pt (5 : ZMod pallas) := mkPt pallas_good (x := -1) (y := 2) (by norm_num)

/-- The generator `(-1, 2)` of Vesta. -/
def vestaGen : Pt (5 : ZMod vesta) := mkPt vesta_good (x := -1) (y := 2) (by norm_num)

theorem gen_ne {p : ℕ} [Fact p.Prime] {b : ZMod p} (hg : Good b) {x y : ZMod p}
    (h : y ^ 2 = x ^ 3 + b) : mkPt hg h ≠ 0 := by
  intro e
  have := congrArg (fun P => (enc P).1) e
  simp only [enc_mkPt, enc_zero] at this
  exact x_ne_zero hg h this

/-- The bits of a number below the leading one, from the top; `n` of them. -/
def bits (k : ℕ) : ℕ → List Bool
  | 0 => []
  | n + 1 => (k.testBit n) :: bits k n

/-- A point times the number before its order is its opposite. -/
theorem order_of {p : ℕ} [Fact p.Prime] {b : ZMod p} (hg : Good b) (hp : 2 < p) {h} {q : ℕ}
    (hrun : mulPt p (p - 1) 2 (bits (q - 1) 254) (p - 1, 2) = some (p - 1, p - 2))
    (hsc : scalar (bits (q - 1) 254) 1 = q - 1) (hq : 0 < q) :
    q • (mkPt hg (x := -1) (y := 2) h : Pt b) = 0 := by
  set g : Pt b := mkPt hg (x := -1) (y := 2) h
  have e1 : ((p - 1 : ℕ) : ZMod p) = -1 := by rw [cast_sub (by omega)]; simp
  have e2 : ((p - 2 : ℕ) : ZMod p) = -2 := by rw [cast_sub (by omega)]; simp
  have hG : enc g = (((p - 1 : ℕ) : ZMod p), ((2 : ℕ) : ZMod p)) := by rw [e1]; simp [g]
  have := mulPt_spec hg (by omega) hG (gen_ne hg h) (bits (q - 1) 254) (s := (p - 1, 2)) (k := 1)
    (by simp) (by simp; omega) (by rw [one_smul]; exact gen_ne hg h) (by rw [one_smul]; exact hG) hrun
  rw [hsc] at this
  have hn : (q - 1) • g = -g := by
    apply enc_injective hg
    rw [this, enc_neg hg, hG]
    simp only [e1, e2]
    norm_num
  have : q • g = (q - 1) • g + g := by
    rw [← succ_nsmul]; congr 1; omega
  rw [this, hn, neg_add_cancel]

/-- **The order of Pallas**: it has as many points as the scalar field has elements. -/
theorem pallas_card : Nat.card (Pt (5 : ZMod pallas)) = vesta :=
  card_of pallas_good (by decide +kernel) vesta_prime (by decide +kernel) (gen_ne pallas_good _)
    (order_of pallas_good (by decide +kernel) (h := by norm_num) (by decide +kernel)
      (by decide +kernel) (by decide +kernel))

/-- **The order of Vesta**: the other half of the cycle. -/
theorem vesta_card : Nat.card (Pt (5 : ZMod vesta)) = pallas :=
  card_of vesta_good (by decide +kernel) pallas_prime (by decide +kernel) (gen_ne vesta_good _)
    (order_of vesta_good (by decide +kernel) (h := by norm_num) (by decide +kernel)
      (by decide +kernel) (by decide +kernel))

/-- Every point of Pallas is annihilated by the modulus of the scalar field. -/
theorem pallas_order (P : Pt (5 : ZMod pallas)) : vesta • P = 0 := by
  rw [← pallas_card]; exact card_nsmul_eq_zero'

/-- Every point of Vesta is annihilated by the modulus of the scalar field. -/
theorem vesta_order (P : Pt (5 : ZMod vesta)) : pallas • P = 0 := by
  rw [← vesta_card]; exact card_nsmul_eq_zero'

/-- The points of Pallas are a vector space over its scalar field, as the modules on the commitment
scheme assume. -/
noncomputable instance : Module (ZMod vesta) (Pt (5 : ZMod pallas)) :=
  AddCommGroup.zmodModule pallas_order

noncomputable instance : Module (ZMod pallas) (Pt (5 : ZMod vesta)) :=
  AddCommGroup.zmodModule vesta_order

/-- A criterion for a root of unity. -/
theorem root_of {n g : ℕ} {r : ℕ} [Fact n.Prime] (p k : ℕ) [Fact p.Prime]
    (hr : r = powMod n 256 g ((n - 1) / p ^ (k + 1)) 1)
    (h1 : (p ^ k : ℕ) < 2 ^ 256 ∧ powMod n 256 r (p ^ k) 1 % n ≠ 1 % n)
    (h2 : (p ^ (k + 1) : ℕ) < 2 ^ 256 ∧ powMod n 256 r (p ^ (k + 1)) 1 % n = 1 % n) :
    IsPrimitiveRoot (r : ZMod n) (p ^ (k + 1)) := by
  rw [← orderOf_eq_prime_pow (p := p) (n := k) (x := (r : ZMod n)) (pow_ne_one h1)
    (by have := pow_eq_of 1 h2; rwa [Nat.cast_one] at this)]
  exact IsPrimitiveRoot.orderOf _

/-- Constants for the base field of Pallas: the root of unity of order `2 ^ 32` and a cube root of
unity, powers of the generator 5. -/
def pallasConsts : Domain.Consts (ZMod pallas) where
  S := 32
  rootOfUnity := (powMod pallas 256 5 ((pallas - 1) / 2 ^ 32) 1 : ℕ)
  zeta := (powMod pallas 256 5 ((pallas - 1) / 3 ^ 1) 1 : ℕ)

/-- The same for Vesta. -/
def vestaConsts : Domain.Consts (ZMod vesta) where
  S := 32
  rootOfUnity := (powMod vesta 256 5 ((vesta - 1) / 2 ^ 32) 1 : ℕ)
  zeta := (powMod vesta 256 5 ((vesta - 1) / 3 ^ 1) 1 : ℕ)

/-- The hypothesis of the theorems on evaluation domains holds for both fields. -/
theorem pallasConsts_valid : pallasConsts.Valid :=
  ⟨root_of 2 31 rfl (by decide +kernel) (by decide +kernel),
    root_of (n := pallas) 3 0 rfl (by decide +kernel) (by decide +kernel)⟩

theorem vestaConsts_valid : vestaConsts.Valid :=
  ⟨root_of 2 31 rfl (by decide +kernel) (by decide +kernel),
    root_of (n := vesta) 3 0 rfl (by decide +kernel) (by decide +kernel)⟩

/-! ## Variable-base multiplication on Pallas -/

open Verif.Region Verif.Mul

theorem order_eq : Mul.order = vesta := by decide +kernel

theorem mul_bounds : 2 ^ 254 < pallas ∧ pallas + T_Q ≤ 2 ^ 254 + 2 ^ 130 := by decide +kernel

theorem order_prime : Mul.order.Prime := by rw [order_eq]; exact vesta_prime

/-- **C41 fails on Pallas**: `Mul.mul_unsound` with all its hypotheses on the field and the curve
discharged. -/
theorem pallas_mul_unsound {alpha : ACell (Fin 10) (ZMod pallas)}
    {base : EccPoint (Fin 10) (ZMod pallas)} {n : ℕ}
    (hα : alpha.cell.reg < n) (hx : base.x.cell.reg < n) (hy : base.y.cell.reg < n)
    {P : Pt (5 : ZMod pallas)} (hP : Val base P) (hP0 : P ≠ 0) (G0 : Grid (Fin 10) (ZMod pallas))
    (hG0 : Holds G0 base P) (hGα : G0.at alpha.cell = alpha.value) :
    ∃ r ops, assign pallasConfig alpha base n = some (r, n + 4, ops) ∧
      ∃ G : Grid (Fin 10) (ZMod pallas), (∀ reg < n, G reg = G0 reg) ∧
        Sat (gates pallasConfig) G ops ∧
        (∀ reg, SatLookup (LookupRange.lookup 10 pallasConfig.overflow.lookup) G ops reg) ∧
        ∃ Q : Pt (5 : ZMod pallas), Holds G r Q ∧ Q ≠ (G.at alpha.cell).val • P :=
  mul_unsound mul_bounds.1 mul_bounds.2 pallas_good order_prime hα hx hy hP hP0
    (by rw [order_eq]; exact pallas_order P) G0 hG0 hGα

/-- Completeness on Pallas, for every scalar and every base. -/
theorem pallas_mul_complete {alpha : ACell (Fin 10) (ZMod pallas)}
    {base : EccPoint (Fin 10) (ZMod pallas)} {n : ℕ}
    (hα : alpha.cell.reg < n) (hx : base.x.cell.reg < n) (hy : base.y.cell.reg < n)
    {P : Pt (5 : ZMod pallas)} (hP : Val base P) (hP0 : P ≠ 0) (G0 : Grid (Fin 10) (ZMod pallas))
    (hG0 : Holds G0 base P) (hGα : G0.at alpha.cell = alpha.value) :
    ∃ r ops, assign pallasConfig alpha base n = some (r, n + 4, ops) ∧
      ∃ G : Grid (Fin 10) (ZMod pallas), (∀ reg < n, G reg = G0 reg) ∧ Honest G ops ∧
        Sat (gates pallasConfig) G ops ∧
        (∀ reg, SatLookup (LookupRange.lookup 10 pallasConfig.overflow.lookup) G ops reg) ∧
        Holds G r ((G.at alpha.cell).val • P) :=
  assign_honest_exists mul_bounds.1 mul_bounds.2 pallas_good order_prime hα hx hy hP hP0
    (by rw [order_eq]; exact pallas_order P) G0 hG0 hGα

end Verif.Pasta
