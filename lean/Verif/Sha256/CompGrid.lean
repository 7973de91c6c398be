import Verif.Sha256.SchedRun

/-!
# An assignment of the compression regions for any sequence of working variables

The working variables before round `i` are `a, b, c, d = A (i+3), A (i+2), A (i+1), A i` and
`e, f, g, h = E (i+3), E (i+2), E (i+1), E i`.
-/

namespace Verif.Sha256

open Verif.Region Col

variable {F : Type} [Field F]

attribute [local irreducible] table

/-- The rows of `decompose_efgh`. -/
def eRows (e : ℕ) : ℕ → Col → ℕ
  | 0 => withLk 7 (slice e 25 32) fun
      | a3 => slice e 6 8
      | a4 => spreadBits 2 (slice e 6 8)
      | a5 => slice e 8 11
      | a6 => spreadBits 3 (slice e 8 11)
      | a7 => slice e 0 16
      | a8 => spreadBits 16 (slice e 0 16)
      | _ => 0
  | _ => withLk 14 (slice e 11 25) fun
      | a3 => slice e 0 3
      | a4 => spreadBits 3 (slice e 0 3)
      | a5 => slice e 3 6
      | a6 => spreadBits 3 (slice e 3 6)
      | a7 => slice e 16 32
      | a8 => spreadBits 16 (slice e 16 32)
      | _ => 0

/-- The rows of `decompose_abcd`. -/
def aRows (a : ℕ) : ℕ → Col → ℕ
  | 0 => withLk 11 (slice a 2 13) fun
      | a3 => slice a 13 16
      | a4 => spreadBits 3 (slice a 13 16)
      | a5 => slice a 16 19
      | a6 => spreadBits 3 (slice a 16 19)
      | a7 => slice a 0 16
      | a8 => spreadBits 16 (slice a 0 16)
      | _ => 0
  | _ => withLk 10 (slice a 22 32) fun
      | a3 => slice a 0 2
      | a4 => spreadBits 2 (slice a 0 2)
      | a5 => slice a 19 22
      | a6 => spreadBits 3 (slice a 19 22)
      | a7 => slice a 16 32
      | a8 => spreadBits 16 (slice a 16 32)
      | _ => 0

/-- The numbers of a round: the sums of spread words, the sum `H'`, the constant. -/
structure Rnd where
  a : ℕ
  b : ℕ
  c : ℕ
  d : ℕ
  e : ℕ
  f : ℕ
  g : ℕ
  h : ℕ
  w : ℕ
  k : ℕ
  a' : ℕ
  e' : ℕ

namespace Rnd

/-- The sum of `Ch`. -/
def rCh (x : Rnd) : ℕ := spW x.e + spW x.f
/-- The sum of the negated part of `Ch`. -/
def rCn (x : Rnd) : ℕ := ngW x.e + spW x.g
/-- The sum of `Maj`. -/
def rMj (x : Rnd) : ℕ := spW x.a + spW x.b + spW x.c
/-- `H'`. -/
def hp (x : Rnd) : ℕ × ℕ :=
  sumWithCarry [(slice x.h 0 16, slice x.h 16 32), (odLo x.rCh, odHi x.rCh), (odLo x.rCn, odHi x.rCn),
    (evLo (rS1 x.e), evHi (rS1 x.e)), (slice x.k 0 16, slice x.k 16 32),
    (x.w % 2 ^ 16, x.w / 2 ^ 16 % 2 ^ 16)]
/-- The new `E`. -/
def eN (x : Rnd) : ℕ × ℕ :=
  sumWithCarry [(slice x.hp.1 0 16, slice x.hp.1 16 32), (slice x.d 0 16, slice x.d 16 32)]
/-- The new `A`. -/
def aN (x : Rnd) : ℕ × ℕ :=
  sumWithCarry [(slice x.hp.1 0 16, slice x.hp.1 16 32), (evLo (rS0 x.a), evHi (rS0 x.a)),
    (odLo x.rMj, odHi x.rMj)]

/-- The rows of a round, except the carries of the new words. -/
def rows (x : Rnd) : ℕ → Col → ℕ
  | 0 => eRows x.e 0
  | 1 => eRows x.e 1
  | 2 => withLk 16 (evLo (rS1 x.e)) fun
      | a3 => spreadBits 2 (slice x.e 6 8)
      | a4 => spreadBits 3 (slice x.e 8 11)
      | _ => 0
  | 3 => withLk 16 (odLo (rS1 x.e)) fun
      | a3 => spreadBits 16 (odHi (rS1 x.e))
      | a4 => spreadBits 7 (slice x.e 25 32)
      | a5 => spreadBits 14 (slice x.e 11 25)
      | _ => 0
  | 4 => withLk 16 (evHi (rS1 x.e)) fun
      | a3 => spreadBits 3 (slice x.e 0 3)
      | a4 => spreadBits 3 (slice x.e 3 6)
      | _ => 0
  | 5 => withLk 16 (odHi (rS1 x.e)) fun _ => 0
  | 6 => withLk 16 (evLo x.rCh) fun
      | a3 => spreadBits 16 (slice x.e 0 16)
      | a4 => spreadBits 16 (slice x.e 16 32)
      | a5 => odLo x.rCn
      | a6 => slice x.k 0 16
      | a7 => slice x.h 0 16
      | a8 => x.w % 2 ^ 16
      | _ => 0
  | 7 => withLk 16 (odLo x.rCh) fun
      | a3 => spreadBits 16 (odHi x.rCh)
      | a4 => evLo (rS1 x.e)
      | a5 => evHi (rS1 x.e)
      | a6 => slice x.k 16 32
      | a7 => slice x.h 16 32
      | a8 => x.w / 2 ^ 16 % 2 ^ 16
      | _ => 0
  | 8 => withLk 16 (evHi x.rCh) fun
      | a3 => spreadBits 16 (slice x.f 0 16)
      | a4 => spreadBits 16 (slice x.f 16 32)
      | a5 => odHi x.rCn
      | a6 => odHi x.rCh
      | a7 => slice x.hp.1 0 16
      | a8 => slice x.hp.1 16 32
      | a9 => x.hp.2
      | _ => 0
  | 9 => withLk 16 (odHi x.rCh) fun
      | a7 => slice x.d 0 16
      | a8 => slice x.e' 0 16
      | _ => 0
  | 10 => withLk 16 (evLo x.rCn) fun
      | a3 => negateSpread 16 (spreadBits 16 (slice x.e 0 16))
      | a4 => negateSpread 16 (spreadBits 16 (slice x.e 16 32))
      | a5 => spreadBits 16 (slice x.e 0 16)
      | a7 => slice x.d 16 32
      | a8 => slice x.e' 16 32
      | _ => 0
  | 11 => withLk 16 (odLo x.rCn) fun
      | a3 => spreadBits 16 (odHi x.rCn)
      | a5 => spreadBits 16 (slice x.e 16 32)
      | _ => 0
  | 12 => withLk 16 (evHi x.rCn) fun
      | a3 => spreadBits 16 (slice x.g 0 16)
      | a4 => spreadBits 16 (slice x.g 16 32)
      | _ => 0
  | 13 => withLk 16 (odHi x.rCn) fun _ => 0
  | 14 => aRows x.a 0
  | 15 => aRows x.a 1
  | 16 => withLk 16 (evLo (rS0 x.a)) fun
      | a3 => spreadBits 3 (slice x.a 13 16)
      | a4 => spreadBits 3 (slice x.a 16 19)
      | _ => 0
  | 17 => withLk 16 (odLo (rS0 x.a)) fun
      | a3 => spreadBits 16 (odHi (rS0 x.a))
      | a4 => spreadBits 10 (slice x.a 22 32)
      | a5 => spreadBits 11 (slice x.a 2 13)
      | _ => 0
  | 18 => withLk 16 (evHi (rS0 x.a)) fun
      | a3 => spreadBits 2 (slice x.a 0 2)
      | a4 => spreadBits 3 (slice x.a 19 22)
      | _ => 0
  | 19 => withLk 16 (odHi (rS0 x.a)) fun _ => 0
  | 20 => withLk 16 (evLo x.rMj) fun
      | a3 => odHi x.rMj
      | a4 => spreadBits 16 (slice x.a 0 16)
      | a5 => spreadBits 16 (slice x.a 16 32)
      | a7 => slice x.hp.1 0 16
      | a8 => slice x.hp.1 16 32
      | _ => 0
  | 21 => withLk 16 (odLo x.rMj) fun
      | a3 => spreadBits 16 (odHi x.rMj)
      | a4 => spreadBits 16 (slice x.b 0 16)
      | a5 => spreadBits 16 (slice x.b 16 32)
      | a6 => evLo (rS0 x.a)
      | a8 => slice x.a' 0 16
      | _ => 0
  | 22 => withLk 16 (evHi x.rMj) fun
      | a4 => spreadBits 16 (slice x.c 0 16)
      | a5 => spreadBits 16 (slice x.c 16 32)
      | a6 => evHi (rS0 x.a)
      | a8 => slice x.a' 16 32
      | _ => 0
  | _ => withLk 16 (odHi x.rMj) fun _ => 0

/-- The carry of the new `E`: any element that makes the gate hold. -/
def carryE (x : Rnd) : F :=
  ((slice x.hp.1 0 16 : ℕ) + (slice x.d 0 16 : ℕ) +
    ((slice x.hp.1 16 32 : ℕ) + (slice x.d 16 32 : ℕ)) * 2 ^ 16 -
    ((slice x.e' 0 16 : ℕ) + (slice x.e' 16 32 : ℕ) * 2 ^ 16)) / 2 ^ 32

/-- The carry of the new `A`. -/
def carryA (x : Rnd) : F :=
  ((evLo (rS0 x.a) : ℕ) + (odLo x.rMj : ℕ) + (slice x.hp.1 0 16 : ℕ) +
    ((evHi (rS0 x.a) : ℕ) + (odHi x.rMj : ℕ) + (slice x.hp.1 16 32 : ℕ)) * 2 ^ 16 -
    ((slice x.a' 0 16 : ℕ) + (slice x.a' 16 32 : ℕ) * 2 ^ 16)) / 2 ^ 32

/-- The cells of a round. -/
def cells (x : Rnd) (k : ℕ) (c : Col) : F :=
  if c = a9 ∧ k = 10 then x.carryE else if c = a9 ∧ k = 21 then x.carryA else ((x.rows k c : ℕ) : F)

end Rnd

/-- `ROUND_CONSTANTS[i]`. -/
def kC (i : ℕ) : ℕ := roundConstants[i]?.getD 0

/-- The numbers of round `i`. -/
def rnd (A E W : ℕ → ℕ) (i : ℕ) : Rnd :=
  ⟨A (i + 3), A (i + 2), A (i + 1), A i, E (i + 3), E (i + 2), E (i + 1), E i, W i, kC i, A (i + 4),
    E (i + 4)⟩

/-- The assignment of the region of the rounds. -/
def compG (A E W : ℕ → ℕ) (c : Col) (z : ℤ) : F :=
  if 0 ≤ z ∧ z < 1536 then (rnd A E W (z.toNat / 24)).cells (z.toNat % 24) c
  else if z = 1536 then match c with
    | a3 => ((slice (A 67) 0 16 : ℕ) : F)
    | a4 => ((slice (A 67) 16 32 : ℕ) : F)
    | _ => 0
  else if z = 1538 then match c with
    | a3 => ((slice (E 67) 0 16 : ℕ) : F)
    | a4 => ((slice (E 67) 16 32 : ℕ) : F)
    | _ => 0
  else 0

/-- The assignment of the initial region. -/
def initG (A E : ℕ → ℕ) (c : Col) (z : ℤ) : F :=
  if 0 ≤ z ∧ z < 8 then ((eRows (E (3 - z.toNat / 2)) (z.toNat % 2) c : ℕ) : F)
  else if 8 ≤ z ∧ z < 16 then ((aRows (A (3 - (z.toNat - 8) / 2)) (z.toNat % 2) c : ℕ) : F)
  else 0

/-- The assignment of the digest region. -/
def digG (A E : ℕ → ℕ) (c : Col) (z : ℤ) : F :=
  if 0 ≤ z ∧ z < 4 then
    let X := if z < 2 then A else E
    let j := 67 - 2 * (z.toNat % 2)
    match c with
    | a3 => ((slice (X j) 0 16 : ℕ) : F)
    | a4 => ((slice (X j) 16 32 : ℕ) : F)
    | a5 => ((X j : ℕ) : F)
    | a6 => ((slice (X (j - 1)) 0 16 : ℕ) : F)
    | a7 => ((slice (X (j - 1)) 16 32 : ℕ) : F)
    | a8 => ((X (j - 1) : ℕ) : F)
    | _ => 0
  else 0

theorem atC (A E W : ℕ → ℕ) (c : Col) {i k : ℕ} (hi : i < 64) (hk : k < 24) {z : ℤ}
    (hz : z = ((24 * i + k : ℕ) : ℤ)) : (compG A E W c z : F) = (rnd A E W i).cells k c := by
  subst hz
  unfold compG
  rw [if_pos ⟨by omega, by omega⟩, Int.toNat_natCast, show (24 * i + k) / 24 = i by omega,
    show (24 * i + k) % 24 = k by omega]

theorem zero_mem : [(0 : F), 0, 0] ∈ (table : List (List F)) :=
  (mem_table _ _ _).2 ⟨0, by norm_num, by simp [getTag], by simp, by simp [spreadBits_zero]⟩

theorem out_lt (r : ℕ) : evLo r < 2 ^ 16 ∧ evHi r < 2 ^ 16 ∧ odLo r < 2 ^ 16 ∧ odHi r < 2 ^ 16 :=
  ⟨evenBits_lt _ _, evenBits_lt _ _, oddBits_lt _ _, oddBits_lt _ _⟩

theorem eRows_mem (e k : ℕ) : [((eRows e k a0 : ℕ) : F), ((eRows e k a1 : ℕ) : F),
    ((eRows e k a2 : ℕ) : F)] ∈ (table : List (List F)) := by
  unfold eRows
  split <;> exact withLk_mem (by norm_num) (slice_lt _ _ _) _

theorem aRows_mem (a k : ℕ) : [((aRows a k a0 : ℕ) : F), ((aRows a k a1 : ℕ) : F),
    ((aRows a k a2 : ℕ) : F)] ∈ (table : List (List F)) := by
  unfold aRows
  split <;> exact withLk_mem (by norm_num) (slice_lt _ _ _) _

theorem Rnd.rows_mem (x : Rnd) (k : ℕ) : [((x.rows k a0 : ℕ) : F), ((x.rows k a1 : ℕ) : F),
    ((x.rows k a2 : ℕ) : F)] ∈ (table : List (List F)) := by
  unfold Rnd.rows
  split
  · exact eRows_mem _ _
  · exact eRows_mem _ _
  · exact withLk_mem (by norm_num) (out_lt _).1 _
  · exact withLk_mem (by norm_num) (out_lt _).2.2.1 _
  · exact withLk_mem (by norm_num) (out_lt _).2.1 _
  · exact withLk_mem (by norm_num) (out_lt _).2.2.2 _
  · exact withLk_mem (by norm_num) (out_lt _).1 _
  · exact withLk_mem (by norm_num) (out_lt _).2.2.1 _
  · exact withLk_mem (by norm_num) (out_lt _).2.1 _
  · exact withLk_mem (by norm_num) (out_lt _).2.2.2 _
  · exact withLk_mem (by norm_num) (out_lt _).1 _
  · exact withLk_mem (by norm_num) (out_lt _).2.2.1 _
  · exact withLk_mem (by norm_num) (out_lt _).2.1 _
  · exact withLk_mem (by norm_num) (out_lt _).2.2.2 _
  · exact aRows_mem _ _
  · exact aRows_mem _ _
  · exact withLk_mem (by norm_num) (out_lt _).1 _
  · exact withLk_mem (by norm_num) (out_lt _).2.2.1 _
  · exact withLk_mem (by norm_num) (out_lt _).2.1 _
  · exact withLk_mem (by norm_num) (out_lt _).2.2.2 _
  · exact withLk_mem (by norm_num) (out_lt _).1 _
  · exact withLk_mem (by norm_num) (out_lt _).2.2.1 _
  · exact withLk_mem (by norm_num) (out_lt _).2.1 _
  · exact withLk_mem (by norm_num) (out_lt _).2.2.2 _

theorem compG_mem (A E W : ℕ → ℕ) (z : ℤ) :
    [(compG A E W a0 z : F), compG A E W a1 z, compG A E W a2 z] ∈ (table : List (List F)) := by
  unfold compG
  split_ifs
  · have := (rnd A E W (z.toNat / 24)).rows_mem (F := F) (z.toNat % 24)
    simpa [Rnd.cells] using this
  · exact zero_mem
  · exact zero_mem
  · exact zero_mem

theorem initG_mem (A E : ℕ → ℕ) (z : ℤ) :
    [(initG A E a0 z : F), initG A E a1 z, initG A E a2 z] ∈ (table : List (List F)) := by
  unfold initG
  split_ifs
  · exact eRows_mem _ _
  · exact aRows_mem _ _
  · exact zero_mem

theorem digG_mem (A E : ℕ → ℕ) (z : ℤ) :
    [(digG A E a0 z : F), digG A E a1 z, digG A E a2 z] ∈ (table : List (List F)) := by
  unfold digG
  split_ifs <;> exact zero_mem

end Verif.Sha256
