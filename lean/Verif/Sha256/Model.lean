import Verif.Sha256.Gates

/-!
# The SHA-256 chip and gadget

Model of halo2_gadgets/src/sha256/table16.rs, table16/message_schedule/{schedule_util,subregion1,
subregion2,subregion3}.rs, table16/compression/{compression_util,subregion_initial,subregion_main,
subregion_digest}.rs and sha256.rs.

Witnesses are known, except that a word of the input may be unknown (`none`), in which case
assigning it is the error the prover gets.  `panic!` is `none` too.  Arithmetic on `u64` is
arithmetic on natural numbers (`Verif.Sha256.r1_lt`, `r20_lt`, `r21_lt`,
`r3_lt`, `rA_lt`, `rE_lt` and `sums_lt` show there is no overflow).
-/

namespace Verif.Sha256

open Verif.Region Col

variable {F α β : Type} [Field F]

/-- `AssignedBits`: table16.rs 116-229. -/
structure ABits where
  cell : Cell Col
  bits : ℕ
  deriving DecidableEq

/-- Code in a region that cannot fail: its result and the operations it performs. -/
def Wr (F α : Type) : Type := α × List (Op Col Sel F)

instance : Monad (Wr F) where
  pure a := (a, [])
  bind x f := ((f x.1).1, x.2 ++ (f x.1).2)

/-- Such code as a layout program. -/
def Wr.run (x : Wr F α) : M Col Sel F α := fun n => some (x.1, n, x.2)

/-- `AssignedBits::assign`, `AssignedBits::assign_bits`, and `assign_advice` of a number:
table16.rs 124-229. -/
def assignBits (reg : ℕ) (col : Col) (row v : ℕ) : Wr F ABits :=
  (⟨⟨reg, col, row⟩, v⟩, [.advice ⟨reg, col, row⟩ v])

/-- `AssignedCell::copy_advice`: circuit.rs 160-176. -/
def ABits.copy (a : ABits) (reg : ℕ) (col : Col) (row : ℕ) : Wr F ABits :=
  (⟨⟨reg, col, row⟩, a.bits⟩, [.advice ⟨reg, col, row⟩ a.bits, .equal ⟨reg, col, row⟩ a.cell])

/-- `Selector::enable`. -/
def enableSel (s : Sel) (reg row : ℕ) : Wr F Unit := ((), [.enable s reg row])

/-- `SpreadVar`: spread_table.rs 69-74. -/
structure SpreadVar where
  dense : ABits
  spread : ABits

/-- `SpreadVar::with_lookup` of `SpreadWord::new(v)`, `v` of `len` bits: spread_table.rs 46-67,
77-110. -/
def withLookup (reg row len v : ℕ) : Wr F SpreadVar := do
  let _ ← assignBits reg a0 row (getTag v)
  let dense ← assignBits reg a1 row v
  let spread ← assignBits reg a2 row (spreadBits len v)
  pure ⟨dense, spread⟩

/-- `SpreadVar::without_lookup`: spread_table.rs 112-145. -/
def withoutLookup (reg : ℕ) (denseCol : Col) (denseRow : ℕ) (spreadCol : Col) (spreadRow len v : ℕ) :
    Wr F SpreadVar := do
  let dense ← assignBits reg denseCol denseRow v
  let spread ← assignBits reg spreadCol spreadRow (spreadBits len v)
  pure ⟨dense, spread⟩

/-- A pair of 16-bit (or 32-bit) halves, low half first: `RoundWordDense`, `RoundWordSpread`,
compression.rs 260-300. -/
structure Halves where
  lo : ABits
  hi : ABits

/-- `RoundWordDense::value`: compression.rs 269-276. -/
def Halves.value (h : Halves) : ℕ := h.lo.bits + 2 ^ 16 * h.hi.bits

/-- `RoundWordSpread::value`: compression.rs 287-294. -/
def Halves.spreadValue (h : Halves) : ℕ := h.lo.bits + 2 ^ 32 * h.hi.bits

/-- `Table16Assignment::assign_spread_outputs`, with the splitting of the 64-bit `r` that precedes
every call: table16.rs 381-429, and for instance subregion1.rs 202-209.  Returns the even and the
odd halves. -/
def assignSpreadOutputs (reg row r : ℕ) : Wr F (Halves × Halves) := do
  let r0 := slice r 0 32
  let r1 := slice r 32 64
  let r0e ← withLookup reg (row - 1) 16 (evenBits 16 r0)
  let r0o ← withLookup reg row 16 (oddBits 16 r0)
  let r1e ← withLookup reg (row + 1) 16 (evenBits 16 r1)
  let r1o ← withLookup reg (row + 2) 16 (oddBits 16 r1)
  let _ ← r1o.spread.copy reg a3 row
  pure (⟨r0e.dense, r1e.dense⟩, ⟨r0o.dense, r1o.dense⟩)

/-- `Table16Assignment::assign_sigma_outputs`: table16.rs 433-450. -/
def assignSigmaOutputs (reg row r : ℕ) : Wr F Halves := do
  let eo ← assignSpreadOutputs reg row r
  pure eo.1

/-! ## Message schedule -/

/-- `get_word_row`: schedule_util.rs 37-56. -/
def getWordRow (i : ℕ) : ℕ :=
  if i = 0 then 0
  else if i ≤ 13 then 2 + 6 * (i - 1)
  else if i ≤ 48 then 2 + 78 + 11 * (i - 14) + 1
  else if i ≤ 61 then 2 + 78 + 385 + 6 * (i - 49)
  else 2 + 78 + 385 + 78 + 2 * (i - 62)

/-- `assign_word_and_halves`: schedule_util.rs 150-180. -/
def assignWordAndHalves (reg word idx : ℕ) : Wr F (ABits × Halves) := do
  let row := getWordRow idx
  let lo ← assignBits reg a3 row (word % 2 ^ 16)
  let hi ← assignBits reg a4 row (word / 2 ^ 16 % 2 ^ 16)
  let word ← assignBits reg a5 row word
  pure (word, ⟨lo, hi⟩)

/-- `Subregion1Word`: subregion1.rs 10-21. -/
structure Subregion1Word where
  index : ℕ
  a : ABits
  b : ABits
  spreadC : ABits
  spreadD : ABits

/-- `xor_lower_sigma_0`: subregion1.rs 40-74. -/
def Subregion1Word.xor (w : Subregion1Word) : ℕ :=
  let a := (6, spreadBits 3 w.a.bits)
  let b := (8, spreadBits 4 w.b.bits)
  let c := (22, w.spreadC.bits)
  let d := (28, w.spreadD.bits)
  cat [b, c, d, (6, 0)] + cat [c, d, a, b] + cat [d, a, b, c]

/-- `decompose_subregion1_word`: subregion1.rs 104-150. -/
def decomposeSubregion1Word (reg word index : ℕ) : Wr F Subregion1Word := do
  let row := getWordRow index
  let a ← assignBits reg a3 (row + 1) (slice word 0 3)
  let b ← assignBits reg a4 (row + 1) (slice word 3 7)
  let c ← withLookup reg (row + 1) 11 (slice word 7 18)
  let d ← withLookup reg row 14 (slice word 18 32)
  pure ⟨index, a, b, c.spread, d.spread⟩

/-- `lower_sigma_0`: subregion1.rs 154-223. -/
def lowerSigma0 (reg : ℕ) (word : Subregion1Word) : Wr F Halves := do
  let row := getWordRow word.index + 3
  let _ ← word.a.copy reg a5 (row + 1)
  let _ ← assignBits reg a6 (row + 1) (spreadBits 3 word.a.bits)
  let bLo := slice word.b.bits 0 2
  let _ ← assignBits reg a3 (row - 1) bLo
  let _ ← assignBits reg a4 (row - 1) (spreadBits 2 bLo)
  let bHi := slice word.b.bits 2 4
  let _ ← assignBits reg a5 (row - 1) bHi
  let _ ← assignBits reg a6 (row - 1) (spreadBits 2 bHi)
  let _ ← word.b.copy reg a6 row
  let _ ← word.spreadC.copy reg a4 row
  let _ ← word.spreadD.copy reg a5 row
  assignSigmaOutputs reg row word.xor

/-- The body of the loop of `assign_subregion1`: subregion1.rs 84-99. -/
def subregion1Word (reg word index : ℕ) : Wr F Halves := do
  let w ← decomposeSubregion1Word reg word index
  lowerSigma0 reg w

/-- `Subregion2Word`: subregion2.rs 10-24. -/
structure Subregion2Word where
  index : ℕ
  a : ABits
  b : ABits
  c : ABits
  e : ABits
  f : ABits
  spreadD : ABits
  spreadG : ABits

/-- `xor_sigma_0`: subregion2.rs 55-103. -/
def Subregion2Word.xor0 (w : Subregion2Word) : ℕ :=
  let a := (6, spreadBits 3 w.a.bits)
  let b := (8, spreadBits 4 w.b.bits)
  let c := (6, spreadBits 3 w.c.bits)
  let d := (14, w.spreadD.bits)
  let e := (2, spreadBits 1 w.e.bits)
  let f := (2, spreadBits 1 w.f.bits)
  let g := (26, w.spreadG.bits)
  cat [b, c, d, e, f, g, (6, 0)] + cat [c, d, e, f, g, a, b] + cat [f, g, a, b, c, d, e]

/-- `xor_sigma_1`: subregion2.rs 105-152. -/
def Subregion2Word.xor1 (w : Subregion2Word) : ℕ :=
  let a := (6, spreadBits 3 w.a.bits)
  let b := (8, spreadBits 4 w.b.bits)
  let c := (6, spreadBits 3 w.c.bits)
  let d := (14, w.spreadD.bits)
  let e := (2, spreadBits 1 w.e.bits)
  let f := (2, spreadBits 1 w.f.bits)
  let g := (26, w.spreadG.bits)
  cat [d, e, f, g, (20, 0)] + cat [e, f, g, a, b, c, d] + cat [g, a, b, c, d, e, f]

/-- `decompose_word`: subregion2.rs 291-353. -/
def decomposeWord (reg word index : ℕ) : Wr F Subregion2Word := do
  let row := getWordRow index
  let a ← assignBits reg a3 (row - 1) (slice word 0 3)
  let b ← withLookup reg (row + 1) 4 (slice word 3 7)
  let c ← assignBits reg a4 (row - 1) (slice word 7 10)
  let d ← withLookup reg row 7 (slice word 10 17)
  let e ← assignBits reg a3 (row + 1) (slice word 17 18)
  let f ← assignBits reg a4 (row + 1) (slice word 18 19)
  let g ← withLookup reg (row - 1) 13 (slice word 19 32)
  pure ⟨index, a, b.dense, c, e, f, d.spread, g.spread⟩

/-- `assign_lower_sigma_v2_pieces`: subregion2.rs 357-418. -/
def assignLowerSigmaV2Pieces (reg row : ℕ) (word : Subregion2Word) : Wr F Unit := do
  let _ ← word.a.copy reg a3 (row + 1)
  let _ ← assignBits reg a4 (row + 1) (spreadBits 3 word.a.bits)
  let bLo := slice word.b.bits 0 2
  let _ ← assignBits reg a3 (row - 1) bLo
  let _ ← assignBits reg a4 (row - 1) (spreadBits 2 bLo)
  let bHi := slice word.b.bits 2 4
  let _ ← assignBits reg a5 (row - 1) bHi
  let _ ← assignBits reg a6 (row - 1) (spreadBits 2 bHi)
  let _ ← word.b.copy reg a6 row
  let _ ← word.c.copy reg a5 (row + 1)
  let _ ← assignBits reg a6 (row + 1) (spreadBits 3 word.c.bits)
  let _ ← word.spreadD.copy reg a4 row
  let _ ← word.e.copy reg a7 row
  let _ ← word.f.copy reg a7 (row + 1)
  let _ ← word.spreadG.copy reg a5 row
  pure ()

/-- `lower_sigma_0_v2`: subregion2.rs 420-451. -/
def lowerSigma0V2 (reg : ℕ) (word : Subregion2Word) : Wr F Halves := do
  let row := getWordRow word.index + 3
  assignLowerSigmaV2Pieces reg row word
  assignSigmaOutputs reg row word.xor0

/-- `lower_sigma_1_v2`: subregion2.rs 453-486. -/
def lowerSigma1V2 (reg : ℕ) (word : Subregion2Word) : Wr F Halves := do
  let row := getWordRow word.index + 4 + 3
  assignLowerSigmaV2Pieces reg row word
  assignSigmaOutputs reg row word.xor1

/-- `Subregion3Word`: subregion3.rs 10-22. -/
structure Subregion3Word where
  index : ℕ
  b : ABits
  c : ABits
  spreadA : ABits
  spreadD : ABits

/-- `xor_lower_sigma_1`: subregion3.rs 41-76. -/
def Subregion3Word.xor (w : Subregion3Word) : ℕ :=
  let a := (20, w.spreadA.bits)
  let b := (14, spreadBits 7 w.b.bits)
  let c := (4, spreadBits 2 w.c.bits)
  let d := (26, w.spreadD.bits)
  cat [b, c, d, (20, 0)] + cat [c, d, a, b] + cat [d, a, b, c]

/-- `decompose_subregion3_word`: subregion3.rs 197-242. -/
def decomposeSubregion3Word (reg word index : ℕ) : Wr F Subregion3Word := do
  let row := getWordRow index
  let a ← withLookup reg (row + 1) 10 (slice word 0 10)
  let b ← assignBits reg a4 (row + 1) (slice word 10 17)
  let c ← assignBits reg a3 (row + 1) (slice word 17 19)
  let d ← withLookup reg row 13 (slice word 19 32)
  pure ⟨index, b, c, a.spread, d.spread⟩

/-- `lower_sigma_1`: subregion3.rs 244-320. -/
def lowerSigma1 (reg : ℕ) (word : Subregion3Word) : Wr F Halves := do
  let row := getWordRow word.index + 3
  let _ ← word.spreadA.copy reg a4 row
  let _ ← withoutLookup reg a3 (row - 1) a4 (row - 1) 2 (slice word.b.bits 0 2)
  let _ ← withoutLookup reg a5 (row - 1) a6 (row - 1) 2 (slice word.b.bits 2 4)
  let _ ← withoutLookup reg a5 (row + 1) a6 (row + 1) 3 (slice word.b.bits 4 7)
  let _ ← word.b.copy reg a6 row
  let _ ← word.c.copy reg a3 (row + 1)
  let _ ← assignBits reg a4 (row + 1) (spreadBits 2 word.c.bits)
  let _ ← word.spreadD.copy reg a5 row
  assignSigmaOutputs reg row word.xor

/-- A pair of halves as an argument of `sum_with_carry`. -/
def Halves.pair (h : Halves) : ℕ × ℕ := (h.lo.bits, h.hi.bits)

/-- The end of the closures `new_word`, from the copy of `sigma_0`: subregion2.rs 194-263,
subregion3.rs 111-186.  `newIdx` is the index of the new word; `s0`, `s1`, `h7`, `h16` are
`σ_0(W_{i-15})`, `σ_1(W_{i-2})`, `W_{i-7}`, `W_{i-16}`. -/
def composeWord (reg newIdx : ℕ) (s0 s1 h7 h16 : Halves) : Wr F (ABits × Halves) := do
  let row := getWordRow (newIdx - 16)
  let _ ← s0.lo.copy reg a6 row
  let _ ← s0.hi.copy reg a6 (row + 1)
  let _ ← s1.lo.copy reg a7 row
  let _ ← s1.hi.copy reg a7 (row + 1)
  let _ ← h7.lo.copy reg a8 row
  let _ ← h7.hi.copy reg a8 (row + 1)
  let wc := sumWithCarry [s1.pair, h7.pair, s0.pair, h16.pair]
  let _ ← assignBits reg a5 (row + 1) wc.1
  let _ ← assignBits reg a9 (row + 1) wc.2
  assignWordAndHalves reg wc.1 newIdx

/-- The vectors `w`, `w_halves`, `lower_sigma_0_v2_results`, `lower_sigma_1_v2_results`:
message_schedule.rs 316-317, subregion2.rs 169-172. -/
structure Sched where
  w : List ABits
  halves : List Halves
  s0 : List Halves
  s1 : List Halves

/-- The closure `new_word` of `assign_subregion2`, with the choice of `σ_0(W_{i-15})` made by the
two loops calling it: subregion2.rs 183-281. -/
def newWord2 (reg : ℕ) (sub1 : List Halves) (st : Sched) (idx : ℕ) : M Col Sel F Sched := do
  let sigma0 ← unwrap (if idx < 27 then sub1[idx - 14]? else st.s0[idx + 2 - 15 - 14]?)
  let wi ← unwrap st.w[idx]?
  let word ← (decomposeWord reg wi.bits idx).run
  let r0 ← (lowerSigma0V2 reg word).run
  let r1 ← (lowerSigma1V2 reg word).run
  let s0 := st.s0 ++ [r0]
  let s1 := st.s1 ++ [r1]
  let newIdx := idx + 2
  let sigma1 ← unwrap s1[newIdx - 16]?
  let h7 ← unwrap st.halves[newIdx - 7]?
  let h16 ← unwrap st.halves[newIdx - 16]?
  let (word, halves) ← (composeWord reg newIdx sigma0 sigma1 h7 h16).run
  pure ⟨st.w ++ [word], st.halves ++ [halves], s0, s1⟩

/-- The closure `new_word` of `assign_subregion3`: subregion3.rs 102-189. -/
def newWord3 (reg : ℕ) (sub2 : List Halves) (st : Sched) (idx : ℕ) : M Col Sel F Sched := do
  let wi ← unwrap st.w[idx]?
  let word ← (decomposeSubregion3Word reg wi.bits idx).run
  let sigma1 ← (lowerSigma1 reg word).run
  let newIdx := idx + 2
  let sigma0 ← unwrap sub2[idx - 49]?
  let h7 ← unwrap st.halves[newIdx - 7]?
  let h16 ← unwrap st.halves[newIdx - 16]?
  let (word, halves) ← (composeWord reg newIdx sigma0 sigma1 h7 h16).run
  pure ⟨st.w ++ [word], st.halves ++ [halves], st.s0, st.s1⟩

/-- The selectors enabled first: message_schedule.rs 325-354. -/
def scheduleSelectors (reg : ℕ) : List (Op Col Sel F) :=
  ((List.range' 1 13).flatMap fun i =>
    [.enable .dec1 reg (getWordRow i : ℕ), .enable .ls0 reg (getWordRow i + 3 : ℕ)]) ++
  ((List.range' 14 35).flatMap fun i =>
    [.enable .dec2 reg (getWordRow i : ℕ), .enable .ls0v2 reg (getWordRow i + 3 : ℕ),
      .enable .ls1v2 reg (getWordRow i + 4 + 3 : ℕ),
      .enable .word reg (getWordRow (i + 2 - 16) + 1 : ℕ)]) ++
  ((List.range' 49 13).flatMap fun i =>
    [.enable .dec3 reg (getWordRow i : ℕ), .enable .ls1 reg (getWordRow i + 3 : ℕ),
      .enable .word reg (getWordRow (i + 2 - 16) + 1 : ℕ)]) ++
  ((List.range' 0 64).flatMap fun i => [.enable .dec0 reg (getWordRow i : ℕ)])

/-- The loops "Assign all fixed columns": message_schedule.rs 325-354. -/
def enableSchedule (reg : ℕ) : Wr F Unit := ((), scheduleSelectors reg)

/-- The input words: message_schedule.rs 356-361. -/
def assignInput (reg : ℕ) (input : List ℕ) : M Col Sel F (List ABits × List Halves) :=
  input.zipIdx.foldlM (fun st wi => do
    let (word, halves) ← (assignWordAndHalves reg wi.1 wi.2).run
    pure (st.1 ++ [word], st.2 ++ [halves])) ([], [])

/-- `assign_subregion1`: subregion1.rs 78-101. -/
def assignSubregion1 (reg : ℕ) (input : List ℕ) : M Col Sel F (List Halves) := do
  assert (input.length = 13)
  input.zipIdx.foldlM (fun st wi => do
    let r ← (subregion1Word reg wi.1 (wi.2 + 1)).run
    pure (st ++ [r])) []

/-- `MessageScheduleConfig::process`: message_schedule.rs 305-393.  The input is an array of
`BLOCK_SIZE` words; an unknown word is an error when it is assigned. -/
def process (input : List (Option ℕ)) : M Col Sel F (List ABits × List Halves) := do
  let input ← unwrap (input.mapM id)
  assert (input.length = 16)
  assignRegion fun reg => do
    (enableSchedule reg).run
    let (w, halves) ← assignInput reg input
    let sub1 ← assignSubregion1 reg ((input.drop 1).take 13)
    let st ← (List.range' 14 35).foldlM (newWord2 reg sub1) ⟨w, halves, [], []⟩
    let st ← (List.range' 49 13).foldlM (newWord3 reg (st.s0.drop (36 - 14))) st
    pure (st.w, st.halves)

/-! ## Compression -/

/-- `AbcdVar`: compression.rs 81-88. -/
structure AbcdVar where
  a : SpreadVar
  b : SpreadVar
  cLo : SpreadVar
  cMid : SpreadVar
  cHi : SpreadVar
  d : SpreadVar

/-- `EfghVar`: compression.rs 170-177. -/
structure EfghVar where
  aLo : SpreadVar
  aHi : SpreadVar
  bLo : SpreadVar
  bHi : SpreadVar
  c : SpreadVar
  d : SpreadVar

/-- `xor_upper_sigma`: compression.rs 35-67. -/
def xorUpperSigma (a b c d : ℕ × ℕ) : ℕ :=
  cat [b, c, d, a] + cat [c, d, a, b] + cat [d, a, b, c]

/-- `xor_upper_sigma` of an `AbcdVar`: compression.rs 35-67, 130-158. -/
def AbcdVar.xor (w : AbcdVar) : ℕ :=
  xorUpperSigma (4, w.a.spread.bits) (22, w.b.spread.bits)
    (18, cat [(6, w.cLo.spread.bits), (6, w.cMid.spread.bits), (6, w.cHi.spread.bits)])
    (20, w.d.spread.bits)

/-- `xor_upper_sigma` of an `EfghVar`: compression.rs 35-67, 219-258. -/
def EfghVar.xor (w : EfghVar) : ℕ :=
  xorUpperSigma (12, cat [(6, w.aLo.spread.bits), (6, w.aHi.spread.bits)])
    (10, cat [(4, w.bLo.spread.bits), (6, w.bHi.spread.bits)])
    (28, w.c.spread.bits) (14, w.d.spread.bits)

/-- `RoundWordA`, `RoundWordE`: compression.rs 297-357.  `pieces` and `spread_halves` are given
together or not at all, by `new` and `new_dense`. -/
structure RoundWordV (V : Type) where
  pieces : Option V
  dense : Halves
  spread : Option Halves

/-- `RoundWord`: compression.rs 359-372. -/
structure RoundWord where
  dense : Halves
  spread : Halves

/-- `State`: compression.rs 374-385.  The fields of the code are optional and tagged by an enum;
`match_state` (compression_util.rs 945-999) extracts them, and `State::new` is always called with
the right tags. -/
structure State where
  a : RoundWordV AbcdVar
  b : RoundWord
  c : RoundWord
  d : Halves
  e : RoundWordV EfghVar
  f : RoundWord
  g : RoundWord
  h : Halves

/-- `decompose_abcd`: compression_util.rs 202-271; pieces: compression.rs 90-127. -/
def decomposeAbcd (reg row val : ℕ) : Wr F AbcdVar := do
  enableSel .abcd reg row
  let a ← withoutLookup reg a3 (row + 1) a4 (row + 1) 2 (slice val 0 2)
  let b ← withLookup reg row 11 (slice val 2 13)
  let cLo ← withoutLookup reg a3 row a4 row 3 (slice val 13 16)
  let cMid ← withoutLookup reg a5 row a6 row 3 (slice val 16 19)
  let cHi ← withoutLookup reg a5 (row + 1) a6 (row + 1) 3 (slice val 19 22)
  let d ← withLookup reg (row + 1) 10 (slice val 22 32)
  pure ⟨a, b, cLo, cMid, cHi, d⟩

/-- `decompose_efgh`: compression_util.rs 273-342; pieces: compression.rs 179-216. -/
def decomposeEfgh (reg row val : ℕ) : Wr F EfghVar := do
  enableSel .efgh reg row
  let aLo ← withoutLookup reg a3 (row + 1) a4 (row + 1) 3 (slice val 0 3)
  let aHi ← withoutLookup reg a5 (row + 1) a6 (row + 1) 3 (slice val 3 6)
  let bLo ← withoutLookup reg a3 row a4 row 2 (slice val 6 8)
  let bHi ← withoutLookup reg a5 row a6 row 3 (slice val 8 11)
  let c ← withLookup reg (row + 1) 14 (slice val 11 25)
  let d ← withLookup reg row 7 (slice val 25 32)
  pure ⟨aLo, aHi, bLo, bHi, c, d⟩

/-- `assign_word_halves`: compression_util.rs 917-943. -/
def assignWordHalves (reg row word : ℕ) : Wr F (Halves × Halves) := do
  let lo ← withoutLookup reg a7 row a8 row 16 (slice word 0 16)
  let hi ← withoutLookup reg a7 (row + 1) a8 (row + 1) 16 (slice word 16 32)
  pure (⟨lo.dense, hi.dense⟩, ⟨lo.spread, hi.spread⟩)

/-- `assign_word_halves_dense`: compression_util.rs 893-915. -/
def assignWordHalvesDense (reg loRow : ℕ) (loCol : Col) (hiRow : ℕ) (hiCol : Col) (word : ℕ) :
    Wr F Halves := do
  let lo ← assignBits reg loCol loRow (slice word 0 16)
  let hi ← assignBits reg hiCol hiRow (slice word 16 32)
  pure ⟨lo, hi⟩

/-- `decompose_a` at its row: compression_util.rs 344-355. -/
def decomposeA (reg row val : ℕ) : Wr F (RoundWordV AbcdVar) := do
  let h ← assignWordHalves reg row val
  let p ← decomposeAbcd reg row val
  pure ⟨some p, h.1, some h.2⟩

/-- `decompose_e` at its row: compression_util.rs 357-368. -/
def decomposeE (reg row val : ℕ) : Wr F (RoundWordV EfghVar) := do
  let h ← assignWordHalves reg row val
  let p ← decomposeEfgh reg row val
  pure ⟨some p, h.1, some h.2⟩

/-- `decompose_b`, `decompose_c` at their rows: subregion_initial.rs 105-129. -/
def decomposeBC (reg row val : ℕ) : Wr F RoundWord := do
  let h ← assignWordHalves reg row val
  let _ ← decomposeAbcd reg row val
  pure ⟨h.1, h.2⟩

/-- `decompose_f`, `decompose_g` at their rows: subregion_initial.rs 131-155. -/
def decomposeFG (reg row val : ℕ) : Wr F RoundWord := do
  let h ← assignWordHalves reg row val
  let _ ← decomposeEfgh reg row val
  pure ⟨h.1, h.2⟩

/-- The rows of a round: compression_util.rs 107-191, with `r` the row of the round. -/
def rowE (i : ℕ) : ℕ := 24 * i
/-- `get_upper_sigma_1_row`: compression_util.rs 129-131. -/
def rowS1 (i : ℕ) : ℕ := rowE i + 2 + 1
/-- `get_ch_row`: compression_util.rs 133-135. -/
def rowCh (i : ℕ) : ℕ := rowE i + 2 + 4 + 1
/-- `get_ch_neg_row`: compression_util.rs 137-139. -/
def rowChNeg (i : ℕ) : ℕ := rowCh i + 4
/-- `get_decompose_a_row`: compression_util.rs 141-146. -/
def rowA (i : ℕ) : ℕ := rowChNeg i - 1 + 4
/-- `get_upper_sigma_0_row`: compression_util.rs 148-150. -/
def rowS0 (i : ℕ) : ℕ := rowA i + 2 + 1
/-- `get_maj_row`: compression_util.rs 160-162. -/
def rowMaj (i : ℕ) : ℕ := rowS0 i + 4
/-- `get_d_row`: compression_util.rs 176-181. -/
def rowD (i : ℕ) : ℕ := rowCh i + 2

/-- `assign_upper_sigma_0`: compression_util.rs 370-426. -/
def assignUpperSigma0 (reg i : ℕ) (word : AbcdVar) : Wr F Halves := do
  let row := rowS0 i
  enableSel .us0 reg row
  let _ ← word.a.spread.copy reg a3 (row + 1)
  let _ ← word.b.spread.copy reg a5 row
  let _ ← word.cLo.spread.copy reg a3 (row - 1)
  let _ ← word.cMid.spread.copy reg a4 (row - 1)
  let _ ← word.cHi.spread.copy reg a4 (row + 1)
  let _ ← word.d.spread.copy reg a4 row
  assignSigmaOutputs reg row word.xor

/-- `assign_upper_sigma_1`: compression_util.rs 428-485. -/
def assignUpperSigma1 (reg i : ℕ) (word : EfghVar) : Wr F Halves := do
  let row := rowS1 i
  enableSel .us1 reg row
  let _ ← word.aLo.spread.copy reg a3 (row + 1)
  let _ ← word.aHi.spread.copy reg a4 (row + 1)
  let _ ← word.bLo.spread.copy reg a3 (row - 1)
  let _ ← word.bHi.spread.copy reg a4 (row - 1)
  let _ ← word.c.spread.copy reg a5 row
  let _ ← word.d.spread.copy reg a4 row
  assignSigmaOutputs reg row word.xor

/-- `assign_ch`, with `assign_ch_outputs`: compression_util.rs 487-556. -/
def assignCh (reg i : ℕ) (e f : Halves) : Wr F Halves := do
  let row := rowCh i
  enableSel .ch reg row
  let _ ← e.lo.copy reg a3 (row - 1)
  let _ ← e.hi.copy reg a4 (row - 1)
  let _ ← f.lo.copy reg a3 (row + 1)
  let _ ← f.hi.copy reg a4 (row + 1)
  let eo ← assignSpreadOutputs reg row (e.spreadValue + f.spreadValue)
  pure eo.2

/-- `assign_ch_neg`: compression_util.rs 558-635. -/
def assignChNeg (reg i : ℕ) (e g : Halves) : Wr F Halves := do
  let row := rowChNeg i
  enableSel .chNeg reg row
  let _ ← e.lo.copy reg a5 (row - 1)
  let _ ← e.hi.copy reg a5 row
  let _ ← g.lo.copy reg a3 (row + 1)
  let _ ← g.hi.copy reg a4 (row + 1)
  let negLo := negateSpread 16 e.lo.bits
  let _ ← assignBits reg a3 (row - 1) negLo
  let negHi := negateSpread 16 e.hi.bits
  let _ ← assignBits reg a4 (row - 1) negHi
  let eo ← assignSpreadOutputs reg row (negLo + 2 ^ 32 * negHi + g.spreadValue)
  pure eo.2

/-- `assign_maj`, with `assign_maj_outputs`: compression_util.rs 637-716. -/
def assignMaj (reg i : ℕ) (a b c : Halves) : Wr F Halves := do
  let row := rowMaj i
  enableSel .maj reg row
  let _ ← a.lo.copy reg a4 (row - 1)
  let _ ← a.hi.copy reg a5 (row - 1)
  let _ ← b.lo.copy reg a4 row
  let _ ← b.hi.copy reg a5 row
  let _ ← c.lo.copy reg a4 (row + 1)
  let _ ← c.hi.copy reg a5 (row + 1)
  let eo ← assignSpreadOutputs reg row (a.spreadValue + b.spreadValue + c.spreadValue)
  pure eo.2

/-- `assign_h_prime`: compression_util.rs 718-800. -/
def assignHPrime (reg i : ℕ) (h ch chNeg sigma1 : Halves) (k : ℕ) (w : Halves) : Wr F Halves := do
  let row := rowCh i
  enableSel .hPrime reg row
  let _ ← h.lo.copy reg a7 (row - 1)
  let _ ← h.hi.copy reg a7 row
  let _ ← sigma1.lo.copy reg a4 row
  let _ ← sigma1.hi.copy reg a5 row
  let kLo := slice k 0 16
  let kHi := slice k 16 32
  let _ ← assignBits reg a6 (row - 1) kLo
  let _ ← assignBits reg a6 row kHi
  let _ ← w.lo.copy reg a8 (row - 1)
  let _ ← w.hi.copy reg a8 row
  let _ ← ch.hi.copy reg a6 (row + 1)
  let _ ← chNeg.lo.copy reg a5 (row - 1)
  let _ ← chNeg.hi.copy reg a5 (row + 1)
  let hc := sumWithCarry [h.pair, ch.pair, chNeg.pair, sigma1.pair, (kLo, kHi), w.pair]
  let _ ← assignBits reg a9 (row + 1) hc.2
  let lo ← assignBits reg a7 (row + 1) (slice hc.1 0 16)
  let hi ← assignBits reg a8 (row + 1) (slice hc.1 16 32)
  pure ⟨lo, hi⟩

/-- `assign_e_new`: compression_util.rs 802-837. -/
def assignENew (reg i : ℕ) (d hPrime : Halves) : Wr F Halves := do
  let row := rowD i
  enableSel .eNew reg row
  let _ ← d.lo.copy reg a7 row
  let _ ← d.hi.copy reg a7 (row + 1)
  let ec := sumWithCarry [hPrime.pair, d.pair]
  let dense ← assignWordHalvesDense reg row a8 (row + 1) a8 ec.1
  let _ ← assignBits reg a9 (row + 1) ec.2
  pure dense

/-- `assign_a_new`: compression_util.rs 839-891. -/
def assignANew (reg i : ℕ) (maj sigma0 hPrime : Halves) : Wr F Halves := do
  let row := rowMaj i
  enableSel .aNew reg row
  let _ ← maj.hi.copy reg a3 (row - 1)
  let _ ← sigma0.lo.copy reg a6 row
  let _ ← sigma0.hi.copy reg a6 (row + 1)
  let _ ← hPrime.lo.copy reg a7 (row - 1)
  let _ ← hPrime.hi.copy reg a8 (row - 1)
  let ac := sumWithCarry [hPrime.pair, sigma0.pair, maj.pair]
  let dense ← assignWordHalvesDense reg row a8 (row + 1) a8 ac.1
  let _ ← assignBits reg a9 row ac.2
  pure dense

/-- `IV`: table16.rs 38-47. -/
def iv : List ℕ :=
  [0x6a09e667, 0xbb67ae85, 0x3c6ef372, 0xa54ff53a, 0x510e527f, 0x9b05688c, 0x1f83d9ab, 0x5be0cd19]

/-- `ROUND_CONSTANTS`: table16.rs 27-36. -/
def roundConstants : List ℕ :=
  [0x428a2f98, 0x71374491, 0xb5c0fbcf, 0xe9b5dba5, 0x3956c25b, 0x59f111f1, 0x923f82a4, 0xab1c5ed5,
    0xd807aa98, 0x12835b01, 0x243185be, 0x550c7dc3, 0x72be5d74, 0x80deb1fe, 0x9bdc06a7, 0xc19bf174,
    0xe49b69c1, 0xefbe4786, 0x0fc19dc6, 0x240ca1cc, 0x2de92c6f, 0x4a7484aa, 0x5cb0a9dc, 0x76f988da,
    0x983e5152, 0xa831c66d, 0xb00327c8, 0xbf597fc7, 0xc6e00bf3, 0xd5a79147, 0x06ca6351, 0x14292967,
    0x27b70a85, 0x2e1b2138, 0x4d2c6dfc, 0x53380d13, 0x650a7354, 0x766a0abb, 0x81c2c92e, 0x92722c85,
    0xa2bfe8a1, 0xa81a664b, 0xc24b8b70, 0xc76c51a3, 0xd192e819, 0xd6990624, 0xf40e3585, 0x106aa070,
    0x19a4c116, 0x1e376c08, 0x2748774c, 0x34b0bcb5, 0x391c0cb3, 0x4ed8aa4a, 0x5b9cca4f, 0x682e6ff3,
    0x748f82ee, 0x78a5636f, 0x84c87814, 0x8cc70208, 0x90befffa, 0xa4506ceb, 0xbef9a3f7, 0xc67178f2]

/-- `assign_round` up to the new values: subregion_main.rs 8-73.  `pa`, `pe`, `sa`, `se` are the
unwrapped pieces and spread halves of `A` and `E`. -/
def roundSums (reg i : ℕ) (st : State) (pa : AbcdVar) (sa : Halves) (pe : EfghVar) (se : Halves)
    (k : ℕ) (w : Halves) : Wr F (Halves × Halves) := do
  let sigma1 ← assignUpperSigma1 reg i pe
  let ch ← assignCh reg i se st.f.spread
  let chNeg ← assignChNeg reg i se st.g.spread
  let sigma0 ← assignUpperSigma0 reg i pa
  let maj ← assignMaj reg i sa st.b.spread st.c.spread
  let hPrime ← assignHPrime reg i st.h ch chNeg sigma1 k w
  let eNew ← assignENew reg i st.d hPrime
  let aNew ← assignANew reg i maj sigma0 hPrime
  pure (aNew, eNew)

/-- The end of `assign_round` in the rounds before the last: subregion_main.rs 75-108. -/
def roundNext (reg i : ℕ) (st : State) (sa se aNew eNew : Halves) : Wr F State := do
  let _ ← aNew.lo.copy reg a7 (rowA (i + 1))
  let _ ← aNew.hi.copy reg a7 (rowA (i + 1) + 1)
  let _ ← eNew.lo.copy reg a7 (rowE (i + 1))
  let _ ← eNew.hi.copy reg a7 (rowE (i + 1) + 1)
  let a ← decomposeA reg (rowA (i + 1)) aNew.value
  let e ← decomposeE reg (rowE (i + 1)) eNew.value
  pure ⟨a, ⟨st.a.dense, sa⟩, st.b, st.c.dense, e, ⟨st.e.dense, se⟩, st.f, st.g.dense⟩

/-- The end of `assign_round` in the last round: subregion_main.rs 109-125. -/
def roundLast (reg : ℕ) (st : State) (sa se aNew eNew : Halves) : Wr F State := do
  let a ← assignWordHalvesDense reg 1536 a3 1536 a4 aNew.value
  let e ← assignWordHalvesDense reg (1536 + 2) a3 (1536 + 2) a4 eNew.value
  pure ⟨⟨none, a, none⟩, ⟨st.a.dense, sa⟩, st.b, st.c.dense, ⟨none, e, none⟩, ⟨st.e.dense, se⟩,
    st.f, st.g.dense⟩

/-- `assign_round`: subregion_main.rs 7-126. -/
def assignRound (reg i : ℕ) (st : State) (w : Halves) : M Col Sel F State := do
  let pe ← unwrap st.e.pieces
  let se ← unwrap st.e.spread
  let pa ← unwrap st.a.pieces
  let sa ← unwrap st.a.spread
  let k ← unwrap roundConstants[i]?
  let (aNew, eNew) ← (roundSums reg i st pa sa pe se k w).run
  if i < 63 then (roundNext reg i st sa se aNew eNew).run
  else (roundLast reg st sa se aNew eNew).run

/-- `initialize_iv` and `initialize_state`, on the values of the eight words:
subregion_initial.rs 11-103. -/
def initializeWords (reg : ℕ) (a b c d e f g h : ℕ) : Wr F State := do
  let e ← decomposeE reg 0 e
  let f ← decomposeFG reg 2 f
  let g ← decomposeFG reg 4 g
  let h ← assignWordHalvesDense reg 6 a7 7 a7 h
  let a ← decomposeA reg 8 a
  let b ← decomposeBC reg 10 b
  let c ← decomposeBC reg 12 c
  let d ← assignWordHalvesDense reg 14 a7 15 a7 d
  pure ⟨a, b, c, d, e, f, g, h⟩

/-- `initialization_vector`, `initialize_with_iv`, `initialize_iv`: table16.rs 333-338,
compression.rs 862-877, subregion_initial.rs 11-53. -/
def initializationVector : M Col Sel F State := do
  let a ← unwrap iv[0]?
  let b ← unwrap iv[1]?
  let c ← unwrap iv[2]?
  let d ← unwrap iv[3]?
  let e ← unwrap iv[4]?
  let f ← unwrap iv[5]?
  let g ← unwrap iv[6]?
  let h ← unwrap iv[7]?
  assignRegion fun reg => (initializeWords reg a b c d e f g h).run

/-- `initialization`, `initialize_with_state`, `initialize_state`: table16.rs 340-348,
compression.rs 879-895, subregion_initial.rs 55-103. -/
def initialization (st : State) : M Col Sel F State :=
  assignRegion fun reg => (initializeWords reg st.a.dense.value st.b.dense.value st.c.dense.value
    st.d.value st.e.dense.value st.f.dense.value st.g.dense.value st.h.value).run

/-- `CompressionConfig::compress`: compression.rs 898-917. -/
def compressRounds (st : State) (halves : List Halves) : M Col Sel F State :=
  assignRegion fun reg =>
    halves.zipIdx.foldlM (fun st wi => assignRound reg wi.2 st wi.1) st

/-- `Table16Chip::compress`: table16.rs 350-363.  The schedule has `ROUNDS` words
(message_schedule.rs 392). -/
def compress (st : State) (input : List (Option ℕ)) : M Col Sel F State := do
  let (_, halves) ← process input
  assert (halves.length = 64)
  compressRounds st halves

/-- `assign_digest_word`: subregion_digest.rs 80-102; the words `A` and `E` are assigned in the
same way at lines 34-45 and 52-63. -/
def assignDigestWord (reg row : ℕ) (loCol hiCol wordCol : Col) (h : Halves) : Wr F ABits := do
  let _ ← h.lo.copy reg loCol row
  let _ ← h.hi.copy reg hiCol row
  assignBits reg wordCol row h.value

/-- `assign_digest`: subregion_digest.rs 11-78.  The code returns the values of the words; the
model also returns the cells they are in. -/
def assignDigest (reg : ℕ) (st : State) : Wr F (List ABits) := do
  enableSel .digest reg 0
  enableSel .digest reg 2
  let a ← assignDigestWord reg 0 a3 a4 a5 st.a.dense
  let b ← assignDigestWord reg 0 a6 a7 a8 st.b.dense
  let c ← assignDigestWord reg 1 a3 a4 a5 st.c.dense
  let d ← assignDigestWord reg 1 a6 a7 a8 st.d
  let e ← assignDigestWord reg 2 a3 a4 a5 st.e.dense
  let f ← assignDigestWord reg 2 a6 a7 a8 st.f.dense
  let g ← assignDigestWord reg 3 a3 a4 a5 st.g.dense
  let h ← assignDigestWord reg 3 a6 a7 a8 st.h
  pure [a, b, c, d, e, f, g, h]

/-- `Table16Chip::digest`: table16.rs 365-373, compression.rs 919-935. -/
def digestState (st : State) : M Col Sel F (List ABits) :=
  assignRegion fun reg => (assignDigest reg st).run

/-! ## The gadget -/

/-- `Sha256`: sha256.rs 62-70. -/
structure Hasher where
  state : State
  curBlock : List (Option ℕ)
  length : ℕ

/-- `Sha256::new`: sha256.rs 74-83. -/
def Hasher.new : M Col Sel F Hasher := do
  let st ← initializationVector
  pure ⟨st, [], 0⟩

/-- `chunks_exact(BLOCK_SIZE)` and its `remainder`. -/
def blocks (data : List (Option ℕ)) : List (List (Option ℕ)) × List (Option ℕ) :=
  if _h : 16 ≤ data.length then
    let r := blocks (data.drop 16)
    (data.take 16 :: r.1, r.2)
  else ([], data)
termination_by data.length
decreasing_by simp only [List.length_drop]; omega

/-- `Sha256::update`: sha256.rs 85-129. -/
def Hasher.update (s : Hasher) (data : List (Option ℕ)) : M Col Sel F Hasher := do
  let length := s.length + data.length * 32
  let l := data.take (16 - s.curBlock.length)
  let r := data.drop (16 - s.curBlock.length)
  let cur := s.curBlock ++ l
  if cur.length < 16 then
    pure ⟨s.state, cur, length⟩
  else
    let st ← compress s.state cur
    let st ← (blocks r).1.foldlM (fun st chunk => do
      let st ← initialization st
      compress st chunk) st
    pure ⟨st, (blocks r).2, length⟩

/-- `Sha256::finalize`: sha256.rs 131-153.  `BlockWord::default()` is an unknown value
(table16.rs 49-52). -/
def Hasher.finalize (s : Hasher) : M Col Sel F (List ABits) := do
  let st ←
    if s.curBlock ≠ [] then do
      let st ← initialization s.state
      compress st (s.curBlock ++ List.replicate (16 - s.curBlock.length) none)
    else pure s.state
  digestState st

/-- `Sha256::digest`: sha256.rs 155-166. -/
def sha256 (data : List (Option ℕ)) : M Col Sel F (List ABits) := do
  let s ← Hasher.new
  let s ← s.update data
  s.finalize

end Verif.Sha256
