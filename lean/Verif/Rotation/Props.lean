import Verif.Rotation.Model
import Verif.Multicore.Props
import Mathlib.Tactic.Ring

/-!
# C09: rotations

Specification: `IsRotation v r out`, position `i` of `out` is position `i + r` modulo the length
of `v`.
-/

namespace Verif.Rotation

open Verif.Multicore (chunks)

variable {α : Type*}

/-- Specification of rotating by `r`. -/
def IsRotation (v : List α) (r : ℤ) (out : List α) : Prop :=
  out.length = v.length ∧ ∀ i < v.length, out[i]? = v[(((i : ℤ) + r) % v.length).toNat]?

theorem isRotation_split (v : List α) (m : ℕ) (hm : m ≤ v.length) (r : ℤ)
    (hr : r = m ∨ r = (m : ℤ) - v.length) : IsRotation v r (v.drop m ++ v.take m) := by
  constructor
  · simp; omega
  · intro i hi
    have hmod : (((i : ℤ) + r) % v.length) = ((i : ℤ) + m) % v.length := by
      rcases hr with rfl | rfl
      · rfl
      · rw [show (i : ℤ) + (m - v.length) = i + m - v.length by ring, Int.sub_emod_right]
    rw [hmod]
    by_cases h : i < v.length - m
    · rw [List.getElem?_append_left (by simpa using h), List.getElem?_drop]
      congr 1
      rw [Int.emod_eq_of_lt (by omega) (by omega)]; omega
    · rw [List.getElem?_append_right (by simp; omega), List.length_drop,
        List.getElem?_take_of_lt (by omega)]
      congr 1
      rw [show (i : ℤ) + m = (i : ℤ) + m - v.length + v.length by ring, Int.add_emod_right,
        Int.emod_eq_of_lt (by omega) (by omega)]
      omega

/-- C09: `rotate` moves position `i + r` to `i`; it panics exactly when `|r|` exceeds the
length. -/
theorem rotate_spec (v : List α) (r : ℤ) :
    (∀ out, rotate v r = some out → IsRotation v r out) ∧
    (rotate v r = none ↔ v.length < r.natAbs) := by
  unfold rotate rotateRight rotateLeft
  constructor
  · intro out
    split_ifs with h1 h2 h2
    · rintro ⟨⟩; exact isRotation_split v _ (by omega) r (.inr (by omega))
    · simp
    · rintro ⟨⟩; exact isRotation_split v _ (by omega) r (.inl (by omega))
    · simp
  · split_ifs <;> simp <;> omega

/-- C09: `rotate_extended` rotates by `r·2^(extended_k − k)`; it panics exactly when that
exceeds the length. -/
theorem rotateExtended_spec {F : Type*} (d : Verif.Domain.Domain F) (v : List α) (r : ℤ) :
    (∀ out, rotateExtended d v r = some out →
      IsRotation v (r * 2 ^ (d.extendedK - d.k)) out) ∧
    (rotateExtended d v r = none ↔ v.length < r.natAbs * 2 ^ (d.extendedK - d.k)) := by
  unfold rotateExtended rotateRight rotateLeft
  generalize hp : (2 : ℕ) ^ (d.extendedK - d.k) = p
  have hpz : (2 : ℤ) ^ (d.extendedK - d.k) = p := by rw [← hp]; push_cast; rfl
  rw [hpz]
  dsimp only
  rw [mul_comm p]
  have habs : ((r.natAbs * p : ℕ) : ℤ) = |r| * p := by push_cast; rfl
  generalize hq : r.natAbs * p = q at *
  constructor
  · intro out
    split_ifs with h1 h2 h2
    · rintro ⟨⟩
      rw [abs_of_nonneg h1] at habs
      exact isRotation_split v _ (by omega) _ (.inl (by omega))
    · simp
    · rintro ⟨⟩
      rw [abs_of_neg (by omega), neg_mul] at habs
      exact isRotation_split v _ (by omega) _ (.inr (by omega))
    · simp
  · split_ifs <;> simp <;> omega

/-- The chunk helper returns the chunk of the rotated list. -/
theorem chunkHelper_eq (v : List α) (neg : Bool) (abs size idx : ℕ) (habs : abs ≤ v.length)
    (hidx : size * idx ≤ v.length) :
    chunkHelper v neg abs size idx
      = (if neg then rotateRight v abs else rotateLeft v abs).map
          fun r => (r.drop (size * idx)).take size := by
  have key : ∀ mid k, mid + k = v.length →
      (let chunkStart := size * idx
       let chunkEnd := min v.length (size * (idx + 1))
       if chunkEnd < k then slice v (mid + chunkStart) (mid + chunkEnd)
       else if chunkStart ≥ k then slice v (chunkStart - k) (chunkEnd - k)
       else
        (slice v (mid + chunkStart) v.length).bind fun a =>
        (slice v 0 (chunkEnd - k)).bind fun b =>
        let chunk := a ++ b
        if chunk.length ≤ size then some chunk else none)
      = some (((v.drop mid ++ v.take mid).drop (size * idx)).take size) := by
    intro mid k hmk
    have hss : size * (idx + 1) = size * idx + size := by ring
    dsimp only
    rw [hss]
    generalize size * idx = s at *
    unfold slice
    by_cases h1 : min v.length (s + size) < k
    · rw [if_pos h1, if_pos (by omega)]
      congr 1
      rw [List.drop_append_of_le_length (by simp; omega), List.drop_drop,
        List.take_append_of_le_length (by simp; omega)]
      congr 1
      omega
    · rw [if_neg h1]
      by_cases h2 : s ≥ k
      · rw [if_pos h2, if_pos (by omega)]
        congr 1
        have hnil : List.drop s (List.drop mid v) = [] :=
          List.drop_of_length_le (by simp; omega)
        rw [List.drop_append, hnil, List.nil_append, List.length_drop, List.drop_take,
          List.take_take]
        rw [show s - (v.length - mid) = s - k by omega]
        have : min v.length (s + size) - k - (s - k) = min size (mid - (s - k)) := by omega
        rw [this]
      · rw [if_neg h2, if_pos (by omega), if_pos (by omega)]
        simp only [Option.bind_some, List.length_append, List.length_take, List.length_drop,
          List.drop_zero]
        rw [if_pos (by omega)]
        congr 1
        rw [List.drop_append_of_le_length (by simp; omega), List.drop_drop, List.take_append,
          List.length_drop, List.take_take]
        congr 1
        · rw [List.take_of_length_le (by simp), List.take_of_length_le (by simp; omega)]
        · congr 1; omega
  unfold chunkHelper rotateRight rotateLeft
  rw [if_pos habs]
  cases neg with
  | true => simpa [habs] using key (v.length - abs) abs (by omega)
  | false => simpa [habs] using key abs (v.length - abs) (by omega)

/-- C09: each chunk of the chunked rotation is the chunk of the rotated polynomial, for every
chunk size and chunk index within the polynomial; both panic on the same rotations. -/
theorem chunkOfRotated_eq (v : List α) (r : ℤ) (size idx : ℕ) (hidx : size * idx ≤ v.length) :
    chunkOfRotated v r size idx
      = (rotate v r).map fun out => (out.drop (size * idx)).take size := by
  unfold chunkOfRotated rotate
  by_cases h : r.natAbs ≤ v.length
  · rw [chunkHelper_eq v _ _ size idx h hidx]
    by_cases hr : r < 0 <;> simp [hr]
  · simp only [chunkHelper, rotateRight, rotateLeft, h, if_false]
    split_ifs <;> rfl

/-- C09 for the extended domain. -/
theorem chunkOfRotatedExtended_eq {F : Type*} (d : Verif.Domain.Domain F) (v : List α) (r : ℤ)
    (size idx : ℕ) (hidx : size * idx ≤ v.length) :
    chunkOfRotatedExtended d v r size idx
      = (rotateExtended d v r).map fun out => (out.drop (size * idx)).take size := by
  unfold chunkOfRotatedExtended rotateExtended
  dsimp only
  by_cases h : 2 ^ (d.extendedK - d.k) * r.natAbs ≤ v.length
  · rw [chunkHelper_eq v _ _ size idx h hidx]
    by_cases hr : r < 0
    · simp [hr, not_le.2 hr]
    · simp [hr, not_lt.1 hr]
  · simp only [chunkHelper, rotateRight, rotateLeft, h, if_false]
    split_ifs <;> rfl

theorem flatten_slices (v : List α) (size : ℕ) :
    ∀ m, ((List.range m).map fun i => (v.drop (size * i)).take size).flatten = v.take (size * m) := by
  intro m
  induction m with
  | zero => simp
  | succ m ih =>
    rw [List.range_succ, List.map_append, List.flatten_append, ih]
    simp only [List.map_cons, List.map_nil, List.flatten_cons, List.flatten_nil, List.append_nil]
    rw [show size * (m + 1) = size * m + size by ring, List.take_add]

/-- C09: the chunks put together, in order, are exactly the rotated polynomial. -/
theorem chunkOfRotated_concat (v : List α) (r : ℤ) (size numChunks : ℕ) (hs : size ≠ 0)
    (hn : numChunks = (v.length + size - 1) / size) (out : List α) (hr : rotate v r = some out) :
    ∃ cs : List (List α), (List.range numChunks).mapM (chunkOfRotated v r size) = some cs ∧
      cs.flatten = out := by
  have hlen : out.length = v.length := ((rotate_spec v r).1 out hr).1
  refine ⟨(List.range numChunks).map fun i => (out.drop (size * i)).take size, ?_, ?_⟩
  · have : ∀ l : List ℕ, (∀ i ∈ l, size * i ≤ v.length) →
        l.mapM (chunkOfRotated v r size)
          = some (l.map fun i => (out.drop (size * i)).take size) := by
      intro l
      induction l with
      | nil => intro _; rfl
      | cons i l ih =>
        intro h
        have h1 := chunkOfRotated_eq v r size i (h i (by simp))
        rw [hr, Option.map_some] at h1
        rw [List.mapM_cons, h1, ih fun j hj => h j (by simp [hj])]
        rfl
    apply this
    intro i hi
    have hi := List.mem_range.1 hi
    have : size * i ≤ size * (numChunks - 1) := Nat.mul_le_mul_left _ (by omega)
    have h2 : size * numChunks ≤ v.length + size - 1 := by
      rw [hn]; exact Nat.mul_div_le _ _
    have h3 : size * (numChunks - 1) + size = size * numChunks := by
      rw [← Nat.mul_succ]; congr 1; omega
    omega
  · rw [flatten_slices]
    apply List.take_of_length_le
    rw [hlen, hn]
    have := Nat.div_add_mod (v.length + size - 1) size
    have := Nat.mod_lt (v.length + size - 1) (Nat.pos_of_ne_zero hs)
    omega

example : rotate [1, 2, 3, 4, 5] (-2) = some [4, 5, 1, 2, 3]
    ∧ chunkOfRotated [1, 2, 3, 4, 5] (-2) 2 1 = some [1, 2]
    ∧ chunkOfRotated [1, 2, 3, 4, 5] 2 2 1 = some [5, 1] := by decide

end Verif.Rotation
