import Verif.Sha256.ShaProps
import Verif.Pasta.Props

/-!
# What the hash returns, and what its constraints leave open (C73, C74)
-/

namespace Verif.Sha256

open Verif.Region Col Spec

variable {F : Type} [Field F]

attribute [local irreducible] table

/-- The hash of any message of one or more full blocks runs, and all its constraints are satisfied by
the witness it computes.  It returns the working variables of FIPS 180-4 after the rounds of all
blocks, with the schedule and the constants of FIPS 180-4, but without the additions that end a block
(C73). -/
theorem sha256_complete (hF : Big F) {K : ℕ → Word} {h : Vars} (hc : IsConstants K h) (m : ℕ → Word)
    {k : ℕ} (hk : 1 ≤ k) (n : ℕ) :
    ∃ dig ops, (sha256 ((List.range (16 * k)).map fun j => some (m j).toNat) : M Col Sel F _) n =
        some (dig, n + 3 * k + 1, ops) ∧
      dig.map ABits.bits = (plainRounds K m h k).toList.map BitVec.toNat ∧
      ∃ G : Grid Col F, Honest G ops ∧ Sat gates G ops ∧ (∀ reg, SatLookup lookup G ops reg) ∧
        dig.map (fun c => G.at c.cell) = (plainRounds K m h k).toList.map fun x => (x.toNat : F) := by
  obtain ⟨ops, e, ho⟩ := sha256_runs (F := F) (n := n) hF (blkOf_chain hc m) hk (fun j => (m j).toNat)
    (fun b j hj => blkOf_W K m h b hj)
  obtain ⟨k, rfl⟩ := Nat.exists_eq_add_of_le' hk
  have hv := blkOf_end K m h k
  refine ⟨_, _, e, hv, shaG n (k + 1) (blkOf K m h), honest_of fun op hop => (ho op hop).2,
    sat_of fun op hop => (ho op hop).1 _ fun b => ⟨((blkOf_chain hc m).recAE b).ltA,
      ((blkOf_chain hc m).recAE b).ltE, ((blkOf_chain hc m).recW b).lt⟩, fun reg row => ?_, ?_⟩
  · have := shaG_mem (F := F) n (k + 1) (blkOf K m h) reg (row + 0)
    exact this
  · have hv' := congrArg (List.map (Nat.cast (R := F))) hv
    rw [List.map_map] at hv'
    refine Eq.trans ?_ hv'
    have d (c : Col) (z : ℤ) : (shaG n (k + 1) (blkOf K m h) : Grid Col F).at ⟨n + 3 * (k + 1), c, z⟩ =
        digG (blkOf K m h k).A (blkOf K m h k).E c z := by
      show (shaG n (k + 1) (blkOf K m h) : Grid Col F) (n + 3 * (k + 1)) c z = _
      rw [shaG_dig]; rfl
    show [_, _, _, _, _, _, _, _] = _
    dsimp only
    rw [d, d, d, d, d, d, d, d, (digRow _ _ _).1, (digRow _ _ _).1, (digRow _ _ _).2.1,
      (digRow _ _ _).2.1, (digRow _ _ _).2.2.1, (digRow _ _ _).2.2.1, (digRow _ _ _).2.2.2,
      (digRow _ _ _).2.2.2]
    rfl

/-- So the hash of one block is never the hash value of FIPS 180-4 after this block, in any of its
eight words (C73). -/
theorem sha256_not_fips (hF : Big F) {K : ℕ → Word} {h : Vars} (hc : IsConstants K h) (m : ℕ → Word)
    (n : ℕ) {dig : List ABits} {n' : ℕ} {ops : List (Op Col Sel F)}
    (hr : sha256 ((List.range 16).map fun j => some (m j).toNat) n = some (dig, n', ops)) (i : ℕ)
    (hi : i < 8) :
    (dig.map ABits.bits)[i]? ≠ ((Spec.compress K m h).toList.map BitVec.toNat)[i]? := by
  obtain ⟨dig', ops', e, hv, -⟩ := sha256_complete hF hc m (k := 1) le_rfl n
  rw [show 16 * 1 = 16 from rfl, hr] at e
  obtain ⟨rfl, -⟩ := Prod.mk.inj (Option.some.inj e)
  rw [hv]
  have hb : block m 0 = m := by funext j; simp [block]
  have hp : plainRounds K m h 1 = rounds K (schedule m) h 64 := by
    rw [plainRounds, hb]; rfl
  rw [hp, Spec.compress, (constants_unique hc).2]
  generalize rounds K (schedule m) chipIv 64 = r
  have key : ∀ x y : Word, x ≠ 0 → y.toNat ≠ (x + y).toNat := by
    intro x y hx e
    apply hx
    apply BitVec.eq_of_toNat_eq
    rw [BitVec.toNat_add] at e
    have h1 := x.isLt
    have h2 := y.isLt
    show x.toNat = 0
    omega
  have z : chipIv.a ≠ 0 ∧ chipIv.b ≠ 0 ∧ chipIv.c ≠ 0 ∧ chipIv.d ≠ 0 ∧ chipIv.e ≠ 0 ∧ chipIv.f ≠ 0 ∧
      chipIv.g ≠ 0 ∧ chipIv.h ≠ 0 := by decide +kernel
  obtain ⟨za, zb, zc, zd, ze, zf, zg, zh⟩ := z
  simp only [Vars.toList, List.map_cons, List.map_nil]
  interval_cases i <;> simp only [List.getElem?_cons_zero, List.getElem?_cons_succ, ne_eq,
    Option.some.injEq] <;> first
    | exact key _ _ za | exact key _ _ zb | exact key _ _ zc | exact key _ _ zd
    | exact key _ _ ze | exact key _ _ zf | exact key _ _ zg | exact key _ _ zh

/-- Two words of block `b` are those of the honest run, the last four are others. -/
def forge (B : Blk) (D : Vars) : Blk where
  A := fun j => if j < 64 then B.A j else
    if j = 67 then D.a.toNat else if j = 66 then D.b.toNat else if j = 65 then D.c.toNat else D.d.toNat
  E := fun j => if j < 64 then B.E j else
    if j = 67 then D.e.toNat else if j = 66 then D.f.toNat else if j = 65 then D.g.toNat else D.h.toNat
  W := B.W

theorem forge_bd {B : Blk} (hB : B.Bd) (D : Vars) : (forge B D).Bd where
  A := by
    intro j
    dsimp only [forge]
    split_ifs
    exacts [hB.A j, D.a.isLt, D.b.isLt, D.c.isLt, D.d.isLt]
  E := by
    intro j
    dsimp only [forge]
    split_ifs
    exacts [hB.E j, D.e.isLt, D.f.isLt, D.g.isLt, D.h.isLt]
  W := hB.W

theorem initG_congr {A E A' E' : ℕ → ℕ} (hA : ∀ j < 4, A j = A' j) (hE : ∀ j < 4, E j = E' j) :
    (initG A E : Col → ℤ → F) = initG A' E' := by
  funext c z
  unfold initG
  rw [hA _ (by omega), hE _ (by omega)]

/-- The constraints of the hash do not determine the digest: for every message of one or more full
blocks and any eight words, some satisfying assignment has these words in the cells of the digest,
although it has the computed witness in all regions but two: the rounds of the last block, and the
digest (C74). -/
theorem sha256_free (hF : Big F) (m : ℕ → Word) {k : ℕ} (hk : 1 ≤ k) (n : ℕ) (D : Vars) :
    ∃ dig ops, (sha256 ((List.range (16 * k)).map fun j => some (m j).toNat) : M Col Sel F _) n =
        some (dig, n + 3 * k + 1, ops) ∧
      ∃ G : Grid Col F, Sat gates G ops ∧ (∀ reg, SatLookup lookup G ops reg) ∧
        dig.map (fun c => G.at c.cell) = D.toList.map (fun x => (x.toNat : F)) ∧
        ∀ c v, .advice c v ∈ ops → c.reg ≠ n + 3 * k - 1 → c.reg ≠ n + 3 * k → G.at c = v := by
  have hc := chip_constants
  set B := blkOf chipK m chipIv with hBdef
  have hch : Chain B := blkOf_chain hc m
  obtain ⟨ops, e, ho⟩ := sha256_runs (F := F) (n := n) hF hch hk (fun j => (m j).toNat)
    (fun b j hj => blkOf_W chipK m chipIv b hj)
  obtain ⟨k, rfl⟩ := Nat.exists_eq_add_of_le' hk
  have hbd : ∀ b, (B b).Bd := fun b => ⟨(hch.recAE b).ltA, (hch.recAE b).ltE, (hch.recW b).lt⟩
  set B' : ℕ → Blk := fun b => if b = k then forge (B b) D else B b with hB'
  have hbd' : ∀ b, (B' b).Bd := by
    intro b
    rw [hB']
    dsimp only
    split_ifs
    · exact forge_bd (hbd b) D
    · exact hbd b
  have hk' : B' k = forge (B k) D := if_pos rfl
  refine ⟨_, _, e, shaG n (k + 1) B', sat_of fun op hop => (ho op hop).1 _ hbd', fun reg row => ?_, ?_, ?_⟩
  · have := shaG_mem (F := F) n (k + 1) B' reg (row + 0)
    exact this
  · have d (c : Col) (z : ℤ) : (shaG n (k + 1) B' : Grid Col F).at ⟨n + 3 * (k + 1), c, z⟩ =
        digG (forge (B k) D).A (forge (B k) D).E c z := by
      show (shaG n (k + 1) B' : Grid Col F) (n + 3 * (k + 1)) c z = _
      rw [shaG_dig, show k + 1 - 1 = k from rfl, hk']
    show [_, _, _, _, _, _, _, _] = _
    dsimp only
    rw [d, d, d, d, d, d, d, d, (digRow _ _ _).1, (digRow _ _ _).1, (digRow _ _ _).2.1,
      (digRow _ _ _).2.1, (digRow _ _ _).2.2.1, (digRow _ _ _).2.2.1, (digRow _ _ _).2.2.2,
      (digRow _ _ _).2.2.2]
    rfl
  · intro c v hop h1 h2
    have hh : (shaG n (k + 1) B : Grid Col F).at c = v := (ho _ hop).2
    rw [← hh]
    show (shaG n (k + 1) B' : Grid Col F) c.reg c.col c.row = shaG n (k + 1) B c.reg c.col c.row
    have key : (shaG n (k + 1) B' : Grid Col F) c.reg = shaG n (k + 1) B c.reg := by
      unfold shaG
      rw [if_neg h2, if_neg h2]
      by_cases hb : (c.reg - n) / 3 = k
      · rw [hb, hk']
        have : (c.reg - n) % 3 ≠ 2 := by omega
        by_cases h0 : (c.reg - n) % 3 = 0
        · rw [if_pos h0, if_pos h0]
          refine initG_congr (fun j hj => ?_) fun j hj => ?_
          · exact if_pos (by omega)
          · exact if_pos (by omega)
        · rw [if_neg h0, if_neg h0, if_pos (by omega), if_pos (by omega)]
          rfl
      · rw [show B' ((c.reg - n) / 3) = B ((c.reg - n) / 3) from if_neg hb]
    rw [key]

/-! ## The gadget -/

theorem bind_none {α β : Type} {x : M Col Sel F α} {f : α → M Col Sel F β} {n : ℕ} (h : x n = none) :
    (x >>= f) n = none := by
  simp only [bind, h]

theorem bind_all_none {α β : Type} {x : M Col Sel F α} {f : α → M Col Sel F β} {n : ℕ}
    (h : ∀ a n', f a n' = none) : (x >>= f) n = none := by
  simp only [bind]
  cases hx : x n with
  | none => rfl
  | some r => simp only [h]

theorem bind_some {α β : Type} {x : M Col Sel F α} {f : α → M Col Sel F β} {n n' : ℕ} {b : β}
    {ops : List (Op Col Sel F)} (h : (x >>= f) n = some (b, n', ops)) :
    ∃ a n1 o1 o2, x n = some (a, n1, o1) ∧ f a n1 = some (b, n', o2) ∧ ops = o1 ++ o2 := by
  simp only [bind] at h
  cases hx : x n with
  | none => simp [hx] at h
  | some r =>
    obtain ⟨a, n1, o1⟩ := r
    simp only [hx] at h
    cases hf : f a n1 with
    | none => simp [hf] at h
    | some r =>
      obtain ⟨b', n2, o2⟩ := r
      simp only [hf, Option.some.injEq, Prod.mk.injEq] at h
      obtain ⟨rfl, rfl, rfl⟩ := h
      exact ⟨a, n1, o1, o2, rfl, hf, rfl⟩

theorem compressRounds_eq (st : State) (hs : List Halves) (n : ℕ) :
    (compressRounds st hs : M Col Sel F _) n =
      (hs.zipIdx.foldlM (m := M Col Sel F) (fun st wi => assignRound n wi.2 st wi.1) st) (n + 1) := rfl

/-- Compression from a state that another compression returned fails. -/
theorem compress_none {st : State} (h : st.a.pieces = none) (input : List (Option ℕ)) (n : ℕ) :
    (compress st input : M Col Sel F _) n = none := by
  unfold compress
  refine bind_all_none fun wh n' => ?_
  obtain ⟨w, halves⟩ := wh
  by_cases hl : halves.length = 64
  · refine bind_all_none fun _ n' => ?_
    obtain ⟨x, xs, rfl⟩ : ∃ x xs, halves = x :: xs := by
      cases halves with
      | nil => simp at hl
      | cons x xs => exact ⟨x, xs, rfl⟩
    rw [compressRounds_eq, List.zipIdx_cons, List.foldlM_cons]
    refine bind_none ?_
    show (assignRound n' 0 st x : M Col Sel F _) (n' + 1) = none
    unfold assignRound
    refine bind_all_none fun _ _ => bind_all_none fun _ _ => ?_
    rw [h]
    exact bind_none rfl
  · refine bind_none ?_
    unfold Region.assert
    rw [if_neg hl]

/-- The state that compression returns. -/
theorem compress_pieces {st st' : State} {input : List (Option ℕ)} {n n' : ℕ}
    {ops : List (Op Col Sel F)} (h : compress st input n = some (st', n', ops)) :
    st'.a.pieces = none := by
  unfold compress at h
  obtain ⟨⟨w, halves⟩, n1, o1, o2, -, h, -⟩ := bind_some h
  obtain ⟨_, n2, o3, o4, ha, h, -⟩ := bind_some h
  have hl : halves.length = 64 := by
    by_contra hne
    unfold Region.assert at ha
    rw [if_neg hne] at ha
    cases ha
  rw [compressRounds_eq] at h
  obtain ⟨x, hx⟩ : ∃ x, halves = halves.dropLast ++ [x] :=
    ⟨halves.getLast (by rintro rfl; simp at hl), (List.dropLast_append_getLast _).symm⟩
  have hd : halves.dropLast.length = 63 := by simp [hl]
  rw [hx, List.zipIdx_append, List.foldlM_append, hd] at h
  obtain ⟨st1, n3, o5, o6, -, h, -⟩ := bind_some h
  rw [List.zipIdx_cons, List.foldlM_cons] at h
  obtain ⟨st2, n4, o7, o8, hq, hp, -⟩ := bind_some h
  have : st2 = st' := by
    have := Option.some.inj hp
    exact (Prod.mk.inj this).1
  subst this
  unfold assignRound at hq
  obtain ⟨_, _, _, _, -, hq, -⟩ := bind_some hq
  obtain ⟨_, _, _, _, -, hq, -⟩ := bind_some hq
  obtain ⟨_, _, _, _, -, hq, -⟩ := bind_some hq
  obtain ⟨_, _, _, _, -, hq, -⟩ := bind_some hq
  obtain ⟨_, _, _, _, -, hq, -⟩ := bind_some hq
  obtain ⟨⟨_, _⟩, _, _, _, -, hq, -⟩ := bind_some hq
  simp only [Nat.zero_add, lt_irrefl, if_false] at hq
  have := Option.some.inj hq
  rw [← (Prod.mk.inj this).1]
  rfl

theorem loop_pieces (chunks : List (List (Option ℕ))) : ∀ {st st' : State} {n n' : ℕ}
    {ops : List (Op Col Sel F)}, st.a.pieces = none →
    (chunks.foldlM (m := M Col Sel F) (fun st chunk => do
      let st ← initialization st
      compress st chunk) st) n = some (st', n', ops) → st'.a.pieces = none := by
  induction chunks with
  | nil =>
    intro st st' n n' ops h hr
    have := Option.some.inj hr
    rw [← (Prod.mk.inj this).1]
    exact h
  | cons c cs ih =>
    intro st st' n n' ops h hr
    rw [List.foldlM_cons] at hr
    obtain ⟨st1, n1, o1, o2, h1, h2, -⟩ := bind_some hr
    obtain ⟨st2, n2, o3, o4, -, h3, -⟩ := bind_some h1
    exact ih (compress_pieces h3) h2

theorem blocks_rest (data : List (Option ℕ)) : (blocks data).2.length = data.length % 16 := by
  induction hn : data.length using Nat.strong_induction_on generalizing data with
  | _ k ih =>
    rw [blocks]
    split_ifs with h
    · have := ih (data.length - 16) (by omega) (data.drop 16) (by simp)
      dsimp only
      rw [this]
      omega
    · dsimp only
      omega

/-- The words a hasher keeps after an update are those of an incomplete block.  If the update
completed a block, the state is the one that compression returned. -/
theorem update_state {s s' : Hasher} {data : List (Option ℕ)} {n n' : ℕ} {ops : List (Op Col Sel F)}
    (h : s.update data n = some (s', n', ops)) (hc : s.curBlock.length < 16) :
    s'.curBlock.length = (s.curBlock.length + data.length) % 16 ∧
      (16 ≤ s.curBlock.length + data.length → s'.state.a.pieces = none) := by
  unfold Hasher.update at h
  split_ifs at h with hl
  · have := Option.some.inj h
    rw [← (Prod.mk.inj this).1]
    dsimp only
    rw [List.length_append, List.length_take] at hl ⊢
    refine ⟨?_, fun _ => ?_⟩ <;> omega
  · obtain ⟨st1, n1, o1, o2, h1, h, -⟩ := bind_some h
    obtain ⟨st2, n2, o3, o4, h2, h, -⟩ := bind_some h
    have := Option.some.inj h
    rw [← (Prod.mk.inj this).1]
    rw [List.length_append, List.length_take] at hl
    refine ⟨?_, fun _ => loop_pieces _ (compress_pieces h1) h2⟩
    dsimp only
    rw [blocks_rest, List.length_drop]
    omega

theorem new_state {s : Hasher} {n n' : ℕ} {ops : List (Op Col Sel F)}
    (h : Hasher.new n = some (s, n', ops)) : s.curBlock = [] := by
  unfold Hasher.new at h
  obtain ⟨st, n1, o1, o2, -, h, -⟩ := bind_some h
  have := Option.some.inj h
  rw [← (Prod.mk.inj this).1]

/-- A message cannot be given in two parts if each part completes a block: the second update fails
(C74). -/
theorem update_twice_fails (d1 d2 : List (Option ℕ)) (h1 : 16 ≤ d1.length)
    (h2 : 16 ≤ d1.length % 16 + d2.length) (n : ℕ) :
    (do
      let s ← Hasher.new
      let s ← s.update d1
      s.update d2 : M Col Sel F Hasher) n = none := by
  by_contra hne
  obtain ⟨⟨s2, n', ops⟩, h⟩ := Option.ne_none_iff_exists'.1 hne
  obtain ⟨s0, n1, o1, o2, hs0, h, -⟩ := bind_some h
  obtain ⟨s1, n2, o3, o4, hs1, h, -⟩ := bind_some h
  have e0 := new_state hs0
  obtain ⟨hl, hp⟩ := update_state hs1 (by rw [e0]; simp)
  rw [e0, List.length_nil, Nat.zero_add] at hl hp
  have hp := hp h1
  unfold Hasher.update at h
  rw [if_neg (by rw [List.length_append, List.length_take]; omega)] at h
  rw [bind_none (compress_none hp _ _)] at h
  cases h

theorem mapM_none (l r : List (Option ℕ)) : (l ++ none :: r).mapM id = none := by
  induction l with
  | nil => rfl
  | cons x l ih =>
    rw [List.cons_append, List.mapM_cons, ih]
    cases x <;> rfl

/-- A message that is not made of full blocks has no hash: the words that complete its last block are
unknown (C74). -/
theorem sha256_partial_fails (data : List (Option ℕ)) (h : data.length % 16 ≠ 0) (n : ℕ) :
    (sha256 data : M Col Sel F _) n = none := by
  by_contra hne
  obtain ⟨⟨d, n', ops⟩, hr⟩ := Option.ne_none_iff_exists'.1 hne
  obtain ⟨s0, n1, o1, o2, hs0, hr, -⟩ := bind_some hr
  obtain ⟨s1, n2, o3, o4, hs1, hr, -⟩ := bind_some hr
  have e0 := new_state hs0
  obtain ⟨hl, -⟩ := update_state hs1 (by rw [e0]; simp)
  rw [e0, List.length_nil, Nat.zero_add] at hl
  unfold Hasher.finalize at hr
  rw [if_pos (by intro hh; rw [hh] at hl; exact h hl.symm)] at hr
  obtain ⟨st, n3, o5, o6, -, hr, -⟩ := bind_some hr
  obtain ⟨st', n4, o7, o8, hc, -, -⟩ := bind_some hr
  unfold compress at hc
  rw [bind_none] at hc
  · cases hc
  · unfold process
    refine bind_none ?_
    obtain ⟨r, hr⟩ := Nat.exists_eq_add_of_le' (show 1 ≤ 16 - s1.curBlock.length by omega)
    rw [hr, List.replicate_succ, mapM_none]
    rfl

/-- The hash of no words is the initial hash value (C74). -/
theorem sha256_empty {K : ℕ → Word} {h : Vars} (hc : IsConstants K h) (n : ℕ) :
    ∃ dig ops, (sha256 [] : M Col Sel F _) n = some (dig, n + 2, ops) ∧
      dig.map ABits.bits = h.toList.map BitVec.toNat := by
  rw [(constants_unique hc).2]
  have hd : ∀ (reg : ℕ) (st : State), (assignDigest reg st : Wr F _).1.map ABits.bits =
      [st.a.dense.value, st.b.dense.value, st.c.dense.value, st.d.value, st.e.dense.value,
        st.f.dense.value, st.g.dense.value, st.h.value] := fun _ _ => rfl
  refine ⟨_, _, rfl, ?_⟩
  rw [hd]
  show (iv.map fun x => slice x 0 16 + 2 ^ 16 * slice x 16 32) = _
  decide +kernel

end Verif.Sha256
