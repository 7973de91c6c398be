import Verif.Sha256.ShaRun
import Verif.Sha256.Constants

/-!
# The hash of messages of full blocks: complete (C73), and not sound (C74)
-/

namespace Verif.Sha256

open Verif.Region Col Spec

variable {F : Type} [Field F]

attribute [local irreducible] table

/-! ## The words of the rounds, from FIPS 180-4 -/

/-- The words `a` of the rounds. -/
def seqA (k w : ℕ → Word) (s : Vars) : ℕ → Word
  | 0 => s.d
  | 1 => s.c
  | 2 => s.b
  | j + 3 => (rounds k w s j).a

/-- The words `e` of the rounds. -/
def seqE (k w : ℕ → Word) (s : Vars) : ℕ → Word
  | 0 => s.h
  | 1 => s.g
  | 2 => s.f
  | j + 3 => (rounds k w s j).e

theorem rounds_seq (k w : ℕ → Word) (s : Vars) (i : ℕ) :
    rounds k w s i = ⟨seqA k w s (i + 3), seqA k w s (i + 2), seqA k w s (i + 1), seqA k w s i,
      seqE k w s (i + 3), seqE k w s (i + 2), seqE k w s (i + 1), seqE k w s i⟩ := by
  induction i with
  | zero => rfl
  | succ i ih =>
    have ha : seqA k w s (i + 1 + 3) = (round (k i) (w i) (rounds k w s i)).a := rfl
    have he : seqE k w s (i + 1 + 3) = (round (k i) (w i) (rounds k w s i)).e := rfl
    rw [ha, he]
    show round (k i) (w i) (rounds k w s i) = _
    conv_lhs => rw [round, ih]
    conv_rhs => rw [round, ih]

theorem seq_rec (k w : ℕ → Word) (s : Vars) (hk : ∀ i < 64, kC i = (k i).toNat) :
    RecAE (fun j => (seqA k w s j).toNat) (fun j => (seqE k w s j).toNat) (fun j => (w j).toNat) where
  ltA := fun j => (seqA k w s j).isLt
  ltE := fun j => (seqE k w s j).isLt
  nextA := by
    intro i hi
    have e : seqA k w s (i + 4) = (round (k i) (w i) (rounds k w s i)).a := rfl
    rw [rounds_seq] at e
    rw [show (seqA k w s (i + 4)).toNat = _ from congrArg BitVec.toNat e]
    have h3 := ch_spec (seqE k w s (i + 3)) (seqE k w s (i + 2)) (seqE k w s (i + 1))
    have h4 := rS1_spec (seqE k w s (i + 3))
    have h5 := rS0_spec (seqA k w s (i + 3))
    have h6 := maj_spec (seqA k w s (i + 3)) (seqA k w s (i + 2)) (seqA k w s (i + 1))
    simp only [round, Rnd.aN, Rnd.hp, sumWithCarry, rnd, Rnd.rCh, Rnd.rCn, Rnd.rMj, List.map_cons,
      List.map_nil, List.sum_cons, List.sum_nil, Nat.add_zero, hk i hi, BitVec.toNat_add, slice,
      Nat.pow_zero, Nat.div_one, Nat.reducePow, Nat.reduceSub]
    simp only [Nat.reducePow] at h3 h4 h5 h6
    rw [← h3, ← h4, ← h5, ← h6]
    have b1 := (seqE k w s i).isLt
    have b2 := (k i).isLt
    have b3 := (w i).isLt
    omega
  nextE := by
    intro i hi
    have e : seqE k w s (i + 4) = (round (k i) (w i) (rounds k w s i)).e := rfl
    rw [rounds_seq] at e
    rw [show (seqE k w s (i + 4)).toNat = _ from congrArg BitVec.toNat e]
    have h3 := ch_spec (seqE k w s (i + 3)) (seqE k w s (i + 2)) (seqE k w s (i + 1))
    have h4 := rS1_spec (seqE k w s (i + 3))
    simp only [round, Rnd.eN, Rnd.hp, sumWithCarry, rnd, Rnd.rCh, Rnd.rCn, List.map_cons,
      List.map_nil, List.sum_cons, List.sum_nil, Nat.add_zero, hk i hi, BitVec.toNat_add, slice,
      Nat.pow_zero, Nat.div_one, Nat.reducePow, Nat.reduceSub]
    simp only [Nat.reducePow] at h3 h4
    rw [← h3, ← h4]
    have b1 := (seqE k w s i).isLt
    have b2 := (k i).isLt
    have b3 := (w i).isLt
    have b4 := (seqA k w s i).isLt
    omega

/-! ## Running the hash -/

/-- Block `b` of a message. -/
def block (m : ℕ → Word) (b j : ℕ) : Word := m (16 * b + j)

/-- The rounds of the first `b` blocks of a message, one after the other: FIPS 180-4 6.2.2 steps 1 to
3, without the additions of step 4. -/
def plainRounds (k m : ℕ → Word) (s : Vars) : ℕ → Vars
  | 0 => s
  | b + 1 => rounds k (schedule (block m b)) (plainRounds k m s b) 64

/-- The words of block `b` in an honest run. -/
def blkOf (k m : ℕ → Word) (s : Vars) (b : ℕ) : Blk where
  A := fun j => (seqA k (schedule (block m b)) (plainRounds k m s b) j).toNat
  E := fun j => (seqE k (schedule (block m b)) (plainRounds k m s b) j).toNat
  W := wSeq (block m b)

/-- What a run needs of the words. -/
structure Chain (B : ℕ → Blk) : Prop where
  recAE : ∀ b, RecAE (B b).A (B b).E (B b).W
  recW : ∀ b, Rec (B b).W
  linkA : ∀ b, ∀ j < 4, (B (b + 1)).A j = (B b).A (64 + j)
  linkE : ∀ b, ∀ j < 4, (B (b + 1)).E j = (B b).E (64 + j)
  startA : (B 0).A 3 = (iv[0]?.getD 0) ∧ (B 0).A 2 = (iv[1]?.getD 0) ∧ (B 0).A 1 = (iv[2]?.getD 0) ∧
    (B 0).A 0 = (iv[3]?.getD 0)
  startE : (B 0).E 3 = (iv[4]?.getD 0) ∧ (B 0).E 2 = (iv[5]?.getD 0) ∧ (B 0).E 1 = (iv[6]?.getD 0) ∧
    (B 0).E 0 = (iv[7]?.getD 0)

theorem blkOf_chain {k : ℕ → Word} {s : Vars} (hc : IsConstants k s) (m : ℕ → Word) :
    Chain (blkOf k m s) where
  recAE := fun b => seq_rec _ _ _ fun i hi => by
    rw [(constants_unique hc).1 i hi, chipK, toNat_of_root (roundConstants_root hi)]
    rfl
  recW := fun b => wSeq_rec _
  linkA := by
    intro b j hj
    have e : plainRounds k m s (b + 1) = _ := rounds_seq k (schedule (block m b)) (plainRounds k m s b) 64
    show (seqA _ _ (plainRounds k m s (b + 1)) j).toNat = (seqA _ _ (plainRounds k m s b) (64 + j)).toNat
    rcases j with _ | _ | _ | _ | j
    · rw [e]; rfl
    · rw [e]; rfl
    · rw [e]; rfl
    · rw [e]; rfl
    · omega
  linkE := by
    intro b j hj
    have e : plainRounds k m s (b + 1) = _ := rounds_seq k (schedule (block m b)) (plainRounds k m s b) 64
    show (seqE _ _ (plainRounds k m s (b + 1)) j).toNat = (seqE _ _ (plainRounds k m s b) (64 + j)).toNat
    rcases j with _ | _ | _ | _ | j
    · rw [e]; rfl
    · rw [e]; rfl
    · rw [e]; rfl
    · rw [e]; rfl
    · omega
  startA := by
    rw [(constants_unique hc).2]
    exact ⟨toNat_of_root (iv_root (i := 0) (by norm_num)), toNat_of_root (iv_root (i := 1) (by norm_num)),
      toNat_of_root (iv_root (i := 2) (by norm_num)), toNat_of_root (iv_root (i := 3) (by norm_num))⟩
  startE := by
    rw [(constants_unique hc).2]
    exact ⟨toNat_of_root (iv_root (i := 4) (by norm_num)), toNat_of_root (iv_root (i := 5) (by norm_num)),
      toNat_of_root (iv_root (i := 6) (by norm_num)), toNat_of_root (iv_root (i := 7) (by norm_num))⟩

theorem blkOf_W (k m : ℕ → Word) (s : Vars) (b : ℕ) {j : ℕ} (hj : j < 16) :
    (blkOf k m s b).W j = (m (16 * b + j)).toNat := by
  show (schedule (block m b) j).toNat = _
  rw [schedule, if_pos hj]
  rfl

theorem blkOf_end (k m : ℕ → Word) (s : Vars) (b : ℕ) :
    [(blkOf k m s b).A 67, (blkOf k m s b).A 66, (blkOf k m s b).A 65, (blkOf k m s b).A 64,
      (blkOf k m s b).E 67, (blkOf k m s b).E 66, (blkOf k m s b).E 65, (blkOf k m s b).E 64] =
      (plainRounds k m s (b + 1)).toList.map BitVec.toNat := by
  have e : plainRounds k m s (b + 1) = _ := rounds_seq k (schedule (block m b)) (plainRounds k m s b) 64
  rw [e]
  rfl

/-- The state after block `b`. -/
def fin (n : ℕ) (B : ℕ → Blk) (b : ℕ) : State := finSt (n + 3 * b) (n + 3 * b + 2) (B b).A (B b).E

/-- The state before block `b`. -/
def ini (n : ℕ) (B : ℕ → Blk) (b : ℕ) : State :=
  compSt (n + 3 * b) (n + 3 * b + 2) (B b).A (B b).E 0

/-- The words of block `b`. -/
def chunk (B : ℕ → Blk) (b : ℕ) : List (Option ℕ) := (List.range 16).map fun j => some ((B b).W j)

theorem compress_runs (hF : Big F) {n k b : ℕ} {B : ℕ → Blk} (hB : Chain B) (hb : b < k) :
    Runs (GP (F := F) n k B) (compress (ini n B b) (chunk B b)) (n + 3 * b + 1) (fin n B b)
      (n + 3 * (b + 1)) := by
  unfold compress
  refine Runs.bind ((process_runs hF (hB.recW b) (n + 3 * b + 1) rfl).mono
    fun op h => GP.of_sp hb h) ?_
  refine Runs.bind (Runs.assert (by simp) _) ?_
  have := (compressRounds_runs (r0 := n + 3 * b) (rs := n + 3 * b + 1) (rc := n + 3 * b + 2) hF (hB.recAE b)).mono
    fun op h => GP.of_cp (n := n) hb h
  exact this

theorem initialization_runs (hF : Big F) {n k b : ℕ} {B : ℕ → Blk} (hB : Chain B) (hb : b + 1 < k) :
    Runs (GP (F := F) n k B) (initialization (fin n B b)) (n + 3 * (b + 1)) (ini n B (b + 1))
      (n + 3 * (b + 1) + 1) := by
  have vA : ∀ j < 4, slice ((B b).A (64 + j)) 0 16 + 2 ^ 16 * slice ((B b).A (64 + j)) 16 32 = (B (b + 1)).A j :=
    fun j hj => by rw [hB.linkA b j hj]; exact slice_word ((hB.recAE b).ltA _)
  have vE : ∀ j < 4, slice ((B b).E (64 + j)) 0 16 + 2 ^ 16 * slice ((B b).E (64 + j)) 16 32 = (B (b + 1)).E j :=
    fun j hj => by rw [hB.linkE b j hj]; exact slice_word ((hB.recAE b).ltE _)
  have a0 := vA 0 (by norm_num)
  have a1 := vA 1 (by norm_num)
  have a2 := vA 2 (by norm_num)
  have a3 := vA 3 (by norm_num)
  have e0 := vE 0 (by norm_num)
  have e1 := vE 1 (by norm_num)
  have e2 := vE 2 (by norm_num)
  have e3 := vE 3 (by norm_num)
  simp only [Nat.reduceAdd, Nat.add_zero] at a0 a1 a2 a3 e0 e1 e2 e3
  unfold initialization fin finSt aD eD Halves.value
  dsimp only
  rw [a0, a1, a2, a3, e0, e1, e2, e3]
  refine Runs.region ?_
  have := Runs.all (initWords_all (r0 := n + 3 * (b + 1)) (rs := n + 3 * (b + 1) + 1)
    (rc := n + 3 * (b + 1) + 2) (A := (B (b + 1)).A) (E := (B (b + 1)).E) (W := (B (b + 1)).W) hF)
    (n + 3 * (b + 1) + 1)
  rw [initWords_fst (rc := n + 3 * (b + 1) + 2)] at this
  exact this.mono fun op h => GP.of_cp (n := n) hb h

theorem iv_runs (hF : Big F) {n k : ℕ} {B : ℕ → Blk} (hB : Chain B) (hk : 0 < k) :
    Runs (GP (F := F) n k B) initializationVector n (ini n B 0) (n + 1) := by
  unfold initializationVector
  have hA := hB.startA
  have hE := hB.startE
  refine Runs.bind (Runs.unwrap (a := (B 0).A 3) (by rw [hA.1]; rfl) n) ?_
  refine Runs.bind (Runs.unwrap (a := (B 0).A 2) (by rw [hA.2.1]; rfl) n) ?_
  refine Runs.bind (Runs.unwrap (a := (B 0).A 1) (by rw [hA.2.2.1]; rfl) n) ?_
  refine Runs.bind (Runs.unwrap (a := (B 0).A 0) (by rw [hA.2.2.2]; rfl) n) ?_
  refine Runs.bind (Runs.unwrap (a := (B 0).E 3) (by rw [hE.1]; rfl) n) ?_
  refine Runs.bind (Runs.unwrap (a := (B 0).E 2) (by rw [hE.2.1]; rfl) n) ?_
  refine Runs.bind (Runs.unwrap (a := (B 0).E 1) (by rw [hE.2.2.1]; rfl) n) ?_
  refine Runs.bind (Runs.unwrap (a := (B 0).E 0) (by rw [hE.2.2.2]; rfl) n) ?_
  refine Runs.region ?_
  have := Runs.all (initWords_all (r0 := n + 3 * 0) (rs := n + 3 * 0 + 1)
    (rc := n + 3 * 0 + 2) (A := (B 0).A) (E := (B 0).E) (W := (B 0).W) hF) (n + 1)
  rw [initWords_fst (rc := n + 3 * 0 + 2)] at this
  exact this.mono fun op h => GP.of_cp (n := n) hk h

theorem loop_runs (hF : Big F) {n k : ℕ} {B : ℕ → Blk} (hB : Chain B) (m : ℕ) :
    ∀ b, b + m < k → Runs (GP (F := F) n k B)
      (((List.range' (b + 1) m).map (chunk B)).foldlM (fun st chunk => do
        let st ← initialization st
        compress st chunk) (fin n B b)) (n + 3 * (b + 1)) (fin n B (b + m)) (n + 3 * (b + m + 1)) := by
  induction m with
  | zero => intro b _; exact Runs.pure _ _
  | succ m ih =>
    intro b hb
    rw [List.range'_succ, List.map_cons, List.foldlM_cons]
    refine Runs.bind (n' := n + 3 * (b + 1 + 1)) (a := fin n B (b + 1))
      (Runs.bind (initialization_runs hF hB (by omega)) (compress_runs hF hB (by omega))) ?_
    have := ih (b + 1) (by omega)
    rw [show b + 1 + m = b + (m + 1) by omega] at this
    exact this

theorem blocks_range (g : ℕ → Option ℕ) (m : ℕ) : ∀ b,
    blocks ((List.range' (16 * b) (16 * m)).map g) =
      ((List.range' b m).map fun c => (List.range 16).map fun j => g (16 * c + j), []) := by
  induction m with
  | zero => intro b; rw [blocks]; rfl
  | succ m ih =>
    intro b
    have e : List.range' (16 * b) (16 * (m + 1)) =
        List.range' (16 * b) 16 ++ List.range' (16 * (b + 1)) (16 * m) := by
      rw [show 16 * (m + 1) = 16 + 16 * m by ring, ← List.range'_append_1,
        show 16 * b + 16 = 16 * (b + 1) by ring]
    rw [blocks, dif_pos (by simp)]
    dsimp only
    rw [e, List.map_append, List.drop_left' (by simp), List.take_left' (by simp), ih (b + 1)]
    rw [List.range'_succ, List.map_cons]
    congr 2

theorem sha256_runs (hF : Big F) {n k : ℕ} {B : ℕ → Blk} (hB : Chain B) (hk : 1 ≤ k)
    (g : ℕ → ℕ) (hg : ∀ b, ∀ j < 16, (B b).W j = g (16 * b + j)) :
    Runs (GP (F := F) n k B) (sha256 ((List.range (16 * k)).map fun j => some (g j))) n
      (digCells (n + 3 * k) (B (k - 1)).A (B (k - 1)).E) (n + 3 * k + 1) := by
  obtain ⟨k, rfl⟩ := Nat.exists_eq_add_of_le' hk
  have hch : ∀ b, chunk B b = (List.range 16).map fun j => some (g (16 * b + j)) := by
    intro b
    refine List.map_congr_left fun j hj => ?_
    rw [hg b j (List.mem_range.1 hj)]
  have e : (List.range (16 * (k + 1))).map (fun j => some (g j)) =
      chunk B 0 ++ (List.range' (16 * 1) (16 * k)).map fun j => some (g j) := by
    rw [List.range_eq_range', show 16 * (k + 1) = 16 + 16 * k by ring, ← List.range'_append_1,
      List.map_append, hch 0, List.range_eq_range']
    simp
  have hlen : (chunk B 0).length = 16 := by simp [chunk]
  unfold sha256
  refine Runs.bind (n' := n + 1) (a := ⟨ini n B 0, [], 0⟩) ?_ ?_
  · unfold Hasher.new
    exact Runs.bind (iv_runs hF hB (by omega)) (Runs.pure _ _)
  refine Runs.bind (n' := n + 3 * (k + 1)) (a := ⟨fin n B k, [], 0 + (16 * (k + 1)) * 32⟩) ?_ ?_
  · unfold Hasher.update
    dsimp only
    rw [e, List.length_nil, Nat.sub_zero, List.take_left' hlen, List.drop_left' hlen, List.nil_append,
      if_neg (by omega), blocks_range, List.length_append, hlen, List.length_map, List.length_range',
      show 16 + 16 * k = 16 * (k + 1) by ring]
    refine Runs.bind (n' := n + 3 * (0 + 1)) (a := fin n B 0) (compress_runs hF hB (by omega)) ?_
    refine Runs.bind (n' := n + 3 * (k + 1)) (a := fin n B k) ?_ (Runs.pure _ _)
    have := loop_runs (F := F) (n := n) (k := k + 1) hF hB k 0 (by omega)
    rw [Nat.zero_add, Nat.zero_add] at this
    have e2 : (List.range' 1 k).map (chunk B) =
        (List.range' 1 k).map fun c => (List.range 16).map fun j => some (g (16 * c + j)) :=
      List.map_congr_left fun b _ => hch b
    rw [e2] at this
    exact this
  · unfold Hasher.finalize
    dsimp only
    rw [if_neg (by simp)]
    refine Runs.bind (Runs.pure _ _) ?_
    unfold digestState
    refine Runs.region ?_
    have := Runs.all (digest_all (F := F) (n := n) (k := k + 1) hk (B := B) (hB.recAE _).ltA (hB.recAE _).ltE)
      (n + 3 * (k + 1) + 1)
    have e3 : (assignDigest (n + 3 * (k + 1)) (fin n B k) : Wr F _).1 =
        digCells (n + 3 * (k + 1)) (B k).A (B k).E := by
      have vA : ∀ j, slice ((B k).A j) 0 16 + 2 ^ 16 * slice ((B k).A j) 16 32 = (B k).A j :=
        fun j => slice_word ((hB.recAE k).ltA j)
      have vE : ∀ j, slice ((B k).E j) 0 16 + 2 ^ 16 * slice ((B k).E j) 16 32 = (B k).E j :=
        fun j => slice_word ((hB.recAE k).ltE j)
      unfold assignDigest assignDigestWord fin finSt aD eD Halves.value
      dsimp only
      simp only [vA, vE]
      rfl
    rw [show k + 1 - 1 = k from rfl] at *
    rw [← e3]
    exact this

end Verif.Sha256
