import Verif.Sinsemilla.Props
import Verif.Sinsemilla.Local
import Verif.CondSwap.Props
import Verif.Merkle.Model

/-!
# MerkleCRH and Merkle paths (Zcash protocol specification, sections 5.4.1.3 and 4.9)
-/

namespace Verif.Merkle

open Verif.Region Verif.Ecc Verif.Utilities Verif.Sinsemilla

variable {p : ℕ} [Fact p.Prime] {b : ZMod p}

/-- `I2LEBSP_n`: the bits of a number, the least significant first. -/
def lebs (n x : ℕ) : List Bool := (List.range n).map x.testBit

/-- The number with the given bits. -/
def ofBits : List Bool → ℕ
  | [] => 0
  | c :: cs => c.toNat + 2 * ofBits cs

/-- A message in words of 10 bits. -/
def toWords (bits : List Bool) (n : ℕ) : List ℕ :=
  (List.range n).map fun i => ofBits ((bits.drop (10 * i)).take 10)

/-- The message `l ⋆ left ⋆ right`. -/
def crhWords (l left right : ℕ) : List ℕ := toWords (lebs 10 l ++ lebs 255 left ++ lebs 255 right) 52

/-- `next` is `MerkleCRH(l, left, right)`, for some encodings of the nodes with 255 bits (which the
protocol specification allows not to be canonical), unless a collision occurs in the hash. -/
def Crh (gen : ℕ → Pt b) (Q : Pt b) (l : ℕ) (left right next : ZMod p) : Prop :=
  l < 2 ^ 10 ∧ ∃ ls rs : ℕ, ls < 2 ^ 255 ∧ rs < 2 ^ 255 ∧ (ls : ZMod p) = left ∧ (rs : ZMod p) = right ∧
    (Collides gen Q (crhWords l ls rs) ∨
      ∃ R, specHash gen Q (crhWords l ls rs) = some R ∧ next = (enc R).1)

/-- `root` is reached from `node` in layer `l` by a path of siblings, with the bits of the position:
if the bit is one the node is the right one. -/
def Root (gen : ℕ → Pt b) (Q : Pt b) : ℕ → ZMod p → List (ZMod p × Bool) → ZMod p → Prop
  | _, node, [], root => root = node
  | l, node, (sibling, pos) :: rest, root =>
    ∃ next, Crh gen Q l (if pos then sibling else node) (if pos then node else sibling) next ∧
      Root gen Q (l + 1) next rest root

/-- The root of a path for the canonical encodings of the nodes, if the hashes are defined. -/
noncomputable def specRoot (gen : ℕ → Pt b) (Q : Pt b) :
    ℕ → ZMod p → List (ZMod p × Bool) → Option (ZMod p)
  | _, node, [] => some node
  | l, node, (sibling, pos) :: rest =>
    (specHash gen Q (crhWords l (if pos then sibling else node).val
      (if pos then node else sibling).val)).bind fun R => specRoot gen Q (l + 1) (enc R).1 rest

theorem lebs_length (n x : ℕ) : (lebs n x).length = n := by simp [lebs]

theorem lebs_append {n m x y : ℕ} (h : x < 2 ^ n) : lebs n x ++ lebs m y = lebs (n + m) (x + 2 ^ n * y) := by
  refine List.ext_getElem (by simp [lebs]) fun i h1 h2 => ?_
  have e : (x + 2 ^ n * y).testBit i = if i < n then x.testBit i else y.testBit (i - n) := by
    rw [add_comm, Nat.testBit_two_pow_mul_add _ h]
  by_cases hi : i < n
  · rw [List.getElem_append_left (by simpa [lebs] using hi)]
    simp [lebs, e, hi]
  · rw [List.getElem_append_right (by simpa [lebs] using hi)]
    simp [lebs, e, hi]

theorem ofBits_lebs (n x : ℕ) : ofBits (lebs n x) = x % 2 ^ n := by
  induction n generalizing x with
  | zero => simp [lebs, ofBits, Nat.mod_one]
  | succ n ih =>
    have e : lebs (n + 1) x = x.testBit 0 :: lebs n (x / 2) := by
      unfold lebs
      rw [List.range_succ_eq_map, List.map_cons, List.map_map]
      congr 1
      refine List.map_congr_left fun i _ => ?_
      simp [Nat.testBit_succ]
    rw [e, ofBits, ih]
    have h1 : (x.testBit 0).toNat = x % 2 := by
      rw [Nat.testBit_zero]
      rcases Nat.mod_two_eq_zero_or_one x with h | h <;> simp [h]
    rw [h1, pow_succ', Nat.mod_mul]

theorem toWords_lebs (n x : ℕ) : toWords (lebs (10 * n) x) n = digitsOf 10 n x := by
  unfold toWords digitsOf
  refine List.map_congr_left fun i hi => ?_
  rw [List.mem_range] at hi
  have e : ((lebs (10 * n) x).drop (10 * i)).take 10 = lebs 10 (x / 2 ^ (10 * i)) := by
    refine List.ext_getElem (by simp [lebs]; omega) fun j h1 h2 => ?_
    simp [lebs, Nat.testBit_div_two_pow, add_comm]
  rw [e, ofBits_lebs, pow_mul]

theorem crhWords_eq {l left right : ℕ} (hl : l < 2 ^ 10) (hleft : left < 2 ^ 255) :
    crhWords l left right = digitsOf 10 52 (l + 2 ^ 10 * left + 2 ^ 265 * right) := by
  unfold crhWords
  have : l + 2 ^ 10 * left < 2 ^ 265 := by
    have e : 2 ^ 265 = 2 ^ 10 * 2 ^ 255 := by rw [← pow_add]
    rw [e]
    generalize 2 ^ 255 = P at *
    nlinarith
  rw [lebs_append hl, show 10 + 255 = 265 from rfl, lebs_append this]
  exact toWords_lebs 52 _

theorem eq_digitsOf {K : ℕ} (l : List ℕ) (hl : ∀ w ∈ l, w < 2 ^ K) :
    l = digitsOf K l.length (Nat.ofDigits (2 ^ K) l) := by
  induction l with
  | nil => rfl
  | cons a l ih =>
    have ha := hl a (by simp)
    have e : ∀ x n, digitsOf K (n + 1) x = (x % 2 ^ K) :: digitsOf K n (x / 2 ^ K) := by
      intro x n
      unfold digitsOf
      rw [List.range_succ_eq_map, List.map_cons, List.map_map, pow_zero, Nat.div_one]
      congr 1
      refine List.map_congr_left fun i _ => ?_
      simp only [Function.comp, Nat.succ_eq_add_one, pow_succ', Nat.div_div_eq_div_mul]
    rw [List.length_cons, e, Nat.ofDigits_cons, Nat.add_mul_mod_self_left,
      Nat.mod_eq_of_lt ha, Nat.add_mul_div_left _ _ (by positivity), Nat.div_eq_of_lt ha, zero_add,
      ← ih fun w hw => hl w (by simp [hw])]

/-- The message determines the numbers. -/
theorem crhWords_inj {l left right left' right' : ℕ} (hl : l < 2 ^ 10) (h1 : left < 2 ^ 255)
    (h2 : right < 2 ^ 255) (h3 : left' < 2 ^ 255) (h4 : right' < 2 ^ 255)
    (h : crhWords l left right = crhWords l left' right') : left = left' ∧ right = right' := by
  have hlt : ∀ x y, x < 2 ^ 255 → y < 2 ^ 255 → l + 2 ^ 10 * x + 2 ^ 265 * y < 2 ^ (10 * 52) := by
    intro x y hx hy
    have e1 : 2 ^ 265 = 2 ^ 10 * 2 ^ 255 := by rw [← pow_add]
    have e2 : 2 ^ (10 * 52) = 2 ^ 10 * 2 ^ 255 * 2 ^ 255 := by rw [← pow_add, ← pow_add]
    rw [e1, e2]
    generalize 2 ^ 255 = P at *
    have : l + 2 ^ 10 * x + 1 ≤ 2 ^ 10 * P := by nlinarith
    nlinarith
  rw [crhWords_eq hl h1, crhWords_eq hl h3] at h
  have h' := congrArg (Nat.ofDigits (2 ^ 10)) h
  rw [digitsOf_value _ _ _ (hlt _ _ h1 h2), digitsOf_value _ _ _ (hlt _ _ h3 h4)] at h'
  have e1 : 2 ^ 265 = 2 ^ 10 * 2 ^ 255 := by rw [← pow_add]
  rw [e1] at h'
  generalize 2 ^ 255 = P at *
  have e : left + P * right = left' + P * right' := by
    have : 2 ^ 10 * (left + P * right) = 2 ^ 10 * (left' + P * right') := by nlinarith
    omega
  have m1 := congrArg (· % P) e
  simp only [Nat.add_mul_mod_self_left, Nat.mod_eq_of_lt h1, Nat.mod_eq_of_lt h3] at m1
  subst m1
  exact ⟨rfl, Nat.eq_of_mul_eq_mul_left (by omega) (Nat.add_left_cancel e)⟩

end Verif.Merkle
