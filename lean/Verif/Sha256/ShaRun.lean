import Verif.Sha256.CompRun

/-!
# The whole hash of messages of full blocks
-/

namespace Verif.Sha256

open Verif.Region Col

variable {F : Type} [Field F]

attribute [local irreducible] table

/-- The words of a block. -/
structure Blk where
  A : ℕ → ℕ
  E : ℕ → ℕ
  W : ℕ → ℕ

/-- They are 32-bit words. -/
structure Blk.Bd (b : Blk) : Prop where
  A : Sha256.Bd b.A
  E : Sha256.Bd b.E
  W : Sha256.Bd b.W

/-- The assignment of all regions, for `k` blocks, from region `n`: three for each block, one for the
digest. -/
def shaG (n k : ℕ) (B : ℕ → Blk) : Grid Col F := fun reg =>
  if reg = n + 3 * k then digG (B (k - 1)).A (B (k - 1)).E
  else if (reg - n) % 3 = 0 then initG (B ((reg - n) / 3)).A (B ((reg - n) / 3)).E
  else if (reg - n) % 3 = 1 then schedG (B ((reg - n) / 3)).W
  else compG (B ((reg - n) / 3)).A (B ((reg - n) / 3)).E (B ((reg - n) / 3)).W

theorem shaG_mem (n k : ℕ) (B : ℕ → Blk) (reg : ℕ) (z : ℤ) :
    [(shaG n k B reg a0 z : F), shaG n k B reg a1 z, shaG n k B reg a2 z] ∈
      (table : List (List F)) := by
  unfold shaG
  split_ifs
  · exact digG_mem _ _ _
  · exact initG_mem _ _ _
  · exact schedG_mem _ _
  · exact compG_mem _ _ _ _

theorem shaG_world (n : ℕ) {k b : ℕ} (hb : b < k) (B : ℕ → Blk) :
    World (shaG n k B : Grid Col F) (n + 3 * b) (n + 3 * b + 1) (n + 3 * b + 2) (B b).A (B b).E
      (B b).W where
  init := by
    unfold shaG
    rw [if_neg (by omega), if_pos (by omega), show (n + 3 * b - n) / 3 = b by omega]
  sched := by
    unfold shaG
    rw [if_neg (by omega), if_neg (by omega), if_pos (by omega),
      show (n + 3 * b + 1 - n) / 3 = b by omega]
  comp := by
    unfold shaG
    rw [if_neg (by omega), if_neg (by omega), if_neg (by omega),
      show (n + 3 * b + 2 - n) / 3 = b by omega]

/-- An operation is satisfied by the assignment of any words, and its witness is that of `B`. -/
def GP (n k : ℕ) (B : ℕ → Blk) (op : Op Col Sel F) : Prop :=
  (∀ B' : ℕ → Blk, (∀ b, (B' b).Bd) → SatOp (shaG n k B') op) ∧ HonOp (shaG n k B) op

theorem GP.of_cp {n k b : ℕ} {B : ℕ → Blk} (hb : b < k) {op : Op Col Sel F}
    (h : CP (n + 3 * b) (n + 3 * b + 1) (n + 3 * b + 2) (B b).A (B b).E (B b).W op) :
    GP n k B op :=
  ⟨fun B' hB => h.1 _ _ _ _ (hB b).A (hB b).E (hB b).W (shaG_world n hb B'),
    h.2 _ (shaG_world n hb B)⟩

theorem GP.of_sp {n k b : ℕ} {B : ℕ → Blk} (hb : b < k) {op : Op Col Sel F}
    (h : SP (n + 3 * b + 1) (B b).W op) : GP n k B op :=
  ⟨fun B' hB => h.1 _ _ (hB b).W (shaG_world n hb B').sched, h.2 _ (shaG_world n hb B).sched⟩

/-! ## The digest -/

/-- The cells of the digest. -/
def digCells (rd : ℕ) (A E : ℕ → ℕ) : List ABits :=
  [⟨⟨rd, a5, (0 : ℕ)⟩, A 67⟩, ⟨⟨rd, a8, (0 : ℕ)⟩, A 66⟩, ⟨⟨rd, a5, (1 : ℕ)⟩, A 65⟩,
    ⟨⟨rd, a8, (1 : ℕ)⟩, A 64⟩, ⟨⟨rd, a5, (2 : ℕ)⟩, E 67⟩, ⟨⟨rd, a8, (2 : ℕ)⟩, E 66⟩,
    ⟨⟨rd, a5, (3 : ℕ)⟩, E 65⟩, ⟨⟨rd, a8, (3 : ℕ)⟩, E 64⟩]

theorem shaG_dig (n k : ℕ) (B : ℕ → Blk) :
    (shaG n k B : Grid Col F) (n + 3 * k) = digG (B (k - 1)).A (B (k - 1)).E := by
  unfold shaG
  rw [if_pos rfl]

section

attribute [local irreducible] slice spreadBits

theorem GP.digAdv {n k : ℕ} {B : ℕ → Blk} {c : Col} {z : ℤ} {v : F}
    (h : digG (B (k - 1)).A (B (k - 1)).E c z = v) :
    GP n k B (.advice ⟨n + 3 * k, c, z⟩ v : Op Col Sel F) :=
  ⟨fun _ _ => trivial, by
    show (shaG n k B : Grid Col F) (n + 3 * k) c z = v
    rw [shaG_dig, h]⟩

theorem GP.digEq {n k : ℕ} (hk : 1 ≤ k) {B : ℕ → Blk} {c : Col} {z : ℤ} {c' : Cell Col}
    {f : (ℕ → ℕ) → (ℕ → ℕ) → (ℕ → ℕ) → F}
    (hf : Holds (n + 3 * (k - 1)) (n + 3 * (k - 1) + 1) (n + 3 * (k - 1) + 2) c' f)
    (h : ∀ A E W, digG A E c z = f A E W) :
    GP n k B (.equal ⟨n + 3 * k, c, z⟩ c' : Op Col Sel F) :=
  ⟨fun B' _ => by
    show (shaG n k B' : Grid Col F) (n + 3 * k) c z = (shaG n k B' : Grid Col F).at c'
    rw [shaG_dig, hf _ _ _ _ (shaG_world n (by omega : k - 1 < k) B'), h], trivial⟩

theorem digRow (A E : ℕ → ℕ) (c : Col) :
    (digG A E c ((0 : ℕ) : ℤ) : F) = (match c with
      | a3 => ((slice (A 67) 0 16 : ℕ) : F) | a4 => ((slice (A 67) 16 32 : ℕ) : F)
      | a5 => ((A 67 : ℕ) : F) | a6 => ((slice (A 66) 0 16 : ℕ) : F)
      | a7 => ((slice (A 66) 16 32 : ℕ) : F) | a8 => ((A 66 : ℕ) : F) | _ => 0) ∧
    (digG A E c ((1 : ℕ) : ℤ) : F) = (match c with
      | a3 => ((slice (A 65) 0 16 : ℕ) : F) | a4 => ((slice (A 65) 16 32 : ℕ) : F)
      | a5 => ((A 65 : ℕ) : F) | a6 => ((slice (A 64) 0 16 : ℕ) : F)
      | a7 => ((slice (A 64) 16 32 : ℕ) : F) | a8 => ((A 64 : ℕ) : F) | _ => 0) ∧
    (digG A E c ((2 : ℕ) : ℤ) : F) = (match c with
      | a3 => ((slice (E 67) 0 16 : ℕ) : F) | a4 => ((slice (E 67) 16 32 : ℕ) : F)
      | a5 => ((E 67 : ℕ) : F) | a6 => ((slice (E 66) 0 16 : ℕ) : F)
      | a7 => ((slice (E 66) 16 32 : ℕ) : F) | a8 => ((E 66 : ℕ) : F) | _ => 0) ∧
    (digG A E c ((3 : ℕ) : ℤ) : F) = (match c with
      | a3 => ((slice (E 65) 0 16 : ℕ) : F) | a4 => ((slice (E 65) 16 32 : ℕ) : F)
      | a5 => ((E 65 : ℕ) : F) | a6 => ((slice (E 64) 0 16 : ℕ) : F)
      | a7 => ((slice (E 64) 16 32 : ℕ) : F) | a8 => ((E 64 : ℕ) : F) | _ => 0) := by
  refine ⟨?_, ?_, ?_, ?_⟩ <;> (unfold digG; rw [if_pos (by norm_num)]; rfl)

theorem digest_ok (X Y : ℕ → ℕ) (hX : Bd X) (j : ℕ) :
    ∀ p ∈ gDigest ((slice (X (j + 3)) 0 16 : ℕ) : F) ((slice (X (j + 3)) 16 32 : ℕ) : F) ((X (j + 3) : ℕ) : F)
      ((slice (X (j + 2)) 0 16 : ℕ) : F) ((slice (X (j + 2)) 16 32 : ℕ) : F) ((X (j + 2) : ℕ) : F)
      ((slice (X (j + 1)) 0 16 : ℕ) : F) ((slice (X (j + 1)) 16 32 : ℕ) : F) ((X (j + 1) : ℕ) : F)
      ((slice (X j) 0 16 : ℕ) : F) ((slice (X j) 16 32 : ℕ) : F) ((X j : ℕ) : F), p = 0 := by
  have h : ∀ i, ((slice (X i) 0 16 : ℕ) : F) + ((slice (X i) 16 32 : ℕ) : F) * 2 ^ 16 - ((X i : ℕ) : F) = 0 := by
    intro i
    have := congrArg (Nat.cast (R := F)) (slice_word (hX i))
    rw [Nat.cast_add, Nat.cast_mul, Nat.cast_pow, Nat.cast_ofNat] at this
    linear_combination this
  simp only [gDigest, List.mem_cons, List.not_mem_nil, or_false, forall_eq_or_imp, forall_eq]
  exact ⟨h _, h _, h _, h _⟩

theorem GP.dig0 {n k : ℕ} {B : ℕ → Blk} :
    GP n k B (.enable .digest (n + 3 * k) ((0 : ℕ) : ℤ) : Op Col Sel F) := by
  refine ⟨fun B' hB => satOp_enable 19 rfl ?_, trivial⟩
  have e1 (c : Col) := (digRow (F := F) (B' (k - 1)).A (B' (k - 1)).E c).1
  have e2 (c : Col) := (digRow (F := F) (B' (k - 1)).A (B' (k - 1)).E c).2.1
  have q (c : Col) (r : ℤ) : Grid.query (shaG n k B' : Grid Col F) (n + 3 * k) ((0 : ℕ) : ℤ) c r =
      digG (B' (k - 1)).A (B' (k - 1)).E c (((0 : ℕ) : ℤ) + r) := by
    show (shaG n k B' : Grid Col F) (n + 3 * k) c _ = _
    rw [shaG_dig]
  simp only [q]
  rw [show ((0 : ℕ) : ℤ) + 0 = ((0 : ℕ) : ℤ) from rfl, show ((0 : ℕ) : ℤ) + 1 = ((1 : ℕ) : ℤ) from rfl]
  simp only [e1, e2]
  exact digest_ok (B' (k - 1)).A (B' (k - 1)).E (hB (k - 1)).A 64

theorem GP.dig2 {n k : ℕ} {B : ℕ → Blk} :
    GP n k B (.enable .digest (n + 3 * k) ((2 : ℕ) : ℤ) : Op Col Sel F) := by
  refine ⟨fun B' hB => satOp_enable 19 rfl ?_, trivial⟩
  have e1 (c : Col) := (digRow (F := F) (B' (k - 1)).A (B' (k - 1)).E c).2.2.1
  have e2 (c : Col) := (digRow (F := F) (B' (k - 1)).A (B' (k - 1)).E c).2.2.2
  have q (c : Col) (r : ℤ) : Grid.query (shaG n k B' : Grid Col F) (n + 3 * k) ((2 : ℕ) : ℤ) c r =
      digG (B' (k - 1)).A (B' (k - 1)).E c (((2 : ℕ) : ℤ) + r) := by
    show (shaG n k B' : Grid Col F) (n + 3 * k) c _ = _
    rw [shaG_dig]
  simp only [q]
  rw [show ((2 : ℕ) : ℤ) + 0 = ((2 : ℕ) : ℤ) from rfl, show ((2 : ℕ) : ℤ) + 1 = ((3 : ℕ) : ℤ) from rfl]
  simp only [e1, e2]
  exact digest_ok (B' (k - 1)).E (B' (k - 1)).A (hB (k - 1)).E 64

theorem digAt (A E : ℕ → ℕ) :
    (digCells rd A E).map (fun c => c.bits) = [A 67, A 66, A 65, A 64, E 67, E 66, E 65, E 64] := rfl

theorem digest_all {n k : ℕ} (hk : 1 ≤ k) {B : ℕ → Blk} (hA : Bd (B (k - 1)).A)
    (hE : Bd (B (k - 1)).E) :
    All (GP (F := F) n k B) (assignDigest (n + 3 * k)
      (finSt (n + 3 * (k - 1)) (n + 3 * (k - 1) + 2) (B (k - 1)).A (B (k - 1)).E)) := by
  have vA : ∀ j, slice ((B (k - 1)).A j) 0 16 + 2 ^ 16 * slice ((B (k - 1)).A j) 16 32 = (B (k - 1)).A j :=
    fun j => slice_word (hA j)
  have vE : ∀ j, slice ((B (k - 1)).E j) 0 16 + 2 ^ 16 * slice ((B (k - 1)).E j) 16 32 = (B (k - 1)).E j :=
    fun j => slice_word (hE j)
  unfold assignDigest assignDigestWord finSt aD eD Halves.value
  dsimp only
  simp only [vA, vE]
  refine All.bind (All.enableSel GP.dig0) (All.bind (All.enableSel GP.dig2) ?_)
  have r0 (c : Col) := fun A E => (digRow (F := F) A E c).1
  have r1 (c : Col) := fun A E => (digRow (F := F) A E c).2.1
  have r2 (c : Col) := fun A E => (digRow (F := F) A E c).2.2.1
  have r3 (c : Col) := fun A E => (digRow (F := F) A E c).2.2.2
  refine All.bind (All.bind (All.copy ?_ ?_) (All.bind (All.copy ?_ ?_) (All.assign ?_))) ?_
  · exact GP.digAdv (r0 a3 _ _)
  · exact GP.digEq hk fin_a3 fun A E _ => r0 a3 A E
  · exact GP.digAdv (r0 a4 _ _)
  · exact GP.digEq hk fin_a4 fun A E _ => r0 a4 A E
  · exact GP.digAdv (r0 a5 _ _)
  refine All.bind (All.bind (All.copy ?_ ?_) (All.bind (All.copy ?_ ?_) (All.assign ?_))) ?_
  · exact GP.digAdv (r0 a6 _ _)
  · exact GP.digEq hk (holdsA (j := 66) (by norm_num) (k := 0) (by norm_num) rfl) fun A E _ => r0 a6 A E
  · exact GP.digAdv (r0 a7 _ _)
  · exact GP.digEq hk (holdsA (j := 66) (by norm_num) (k := 1) (by norm_num) rfl) fun A E _ => r0 a7 A E
  · exact GP.digAdv (r0 a8 _ _)
  refine All.bind (All.bind (All.copy ?_ ?_) (All.bind (All.copy ?_ ?_) (All.assign ?_))) ?_
  · exact GP.digAdv (r1 a3 _ _)
  · exact GP.digEq hk (holdsA (j := 65) (by norm_num) (k := 0) (by norm_num) rfl) fun A E _ => r1 a3 A E
  · exact GP.digAdv (r1 a4 _ _)
  · exact GP.digEq hk (holdsA (j := 65) (by norm_num) (k := 1) (by norm_num) rfl) fun A E _ => r1 a4 A E
  · exact GP.digAdv (r1 a5 _ _)
  refine All.bind (All.bind (All.copy ?_ ?_) (All.bind (All.copy ?_ ?_) (All.assign ?_))) ?_
  · exact GP.digAdv (r1 a6 _ _)
  · exact GP.digEq hk (holdsA (j := 64) (by norm_num) (k := 0) (by norm_num) rfl) fun A E _ => r1 a6 A E
  · exact GP.digAdv (r1 a7 _ _)
  · exact GP.digEq hk (holdsA (j := 64) (by norm_num) (k := 1) (by norm_num) rfl) fun A E _ => r1 a7 A E
  · exact GP.digAdv (r1 a8 _ _)
  refine All.bind (All.bind (All.copy ?_ ?_) (All.bind (All.copy ?_ ?_) (All.assign ?_))) ?_
  · exact GP.digAdv (r2 a3 _ _)
  · exact GP.digEq hk fin_e3 fun A E _ => r2 a3 A E
  · exact GP.digAdv (r2 a4 _ _)
  · exact GP.digEq hk fin_e4 fun A E _ => r2 a4 A E
  · exact GP.digAdv (r2 a5 _ _)
  refine All.bind (All.bind (All.copy ?_ ?_) (All.bind (All.copy ?_ ?_) (All.assign ?_))) ?_
  · exact GP.digAdv (r2 a6 _ _)
  · exact GP.digEq hk (holdsE (j := 66) (by norm_num) (k := 0) (by norm_num) rfl) fun A E _ => r2 a6 A E
  · exact GP.digAdv (r2 a7 _ _)
  · exact GP.digEq hk (holdsE (j := 66) (by norm_num) (k := 1) (by norm_num) rfl) fun A E _ => r2 a7 A E
  · exact GP.digAdv (r2 a8 _ _)
  refine All.bind (All.bind (All.copy ?_ ?_) (All.bind (All.copy ?_ ?_) (All.assign ?_))) ?_
  · exact GP.digAdv (r3 a3 _ _)
  · exact GP.digEq hk (holdsE (j := 65) (by norm_num) (k := 0) (by norm_num) rfl) fun A E _ => r3 a3 A E
  · exact GP.digAdv (r3 a4 _ _)
  · exact GP.digEq hk (holdsE (j := 65) (by norm_num) (k := 1) (by norm_num) rfl) fun A E _ => r3 a4 A E
  · exact GP.digAdv (r3 a5 _ _)
  refine All.bind (All.bind (All.copy ?_ ?_) (All.bind (All.copy ?_ ?_) (All.assign ?_))) (All.pure _)
  · exact GP.digAdv (r3 a6 _ _)
  · exact GP.digEq hk (holdsE (j := 64) (by norm_num) (k := 0) (by norm_num) rfl) fun A E _ => r3 a6 A E
  · exact GP.digAdv (r3 a7 _ _)
  · exact GP.digEq hk (holdsE (j := 64) (by norm_num) (k := 1) (by norm_num) rfl) fun A E _ => r3 a7 A E
  · exact GP.digAdv (r3 a8 _ _)

end

end Verif.Sha256
