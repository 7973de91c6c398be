import Verif.Sinsemilla.Spec
import Verif.RunningSum.Props
import Verif.LookupRange.Props

/-!
# The operations recorded by the Sinsemilla chip
-/

namespace Verif.Sinsemilla

open Verif.Region Verif.Ecc Verif.Utilities Verif.RunningSum Verif.Mul

variable {C S : Type}

section

variable {F : Type} [Field F]

/-- The accumulator after a row. -/
def next (s : F × F) (g : F × F) : F × F :=
  let v := rowVals g s.1 s.2
  (v.2.2.1, v.2.2.2)

/-- The operations of the rows. -/
def rowsOps (cfg : Config C S) (reg : ℕ) : ℕ → F × F → List (F × F) → List (Op C S F)
  | _, _, [] => []
  | row, s, g :: gs =>
    let v := rowVals g s.1 s.2
    [.advice ⟨reg, cfg.da.xP, row⟩ g.1, .advice ⟨reg, cfg.da.lambda1, row⟩ v.1,
     .advice ⟨reg, cfg.da.lambda2, row⟩ v.2.1, .advice ⟨reg, cfg.da.xA, (row + 1 : ℕ)⟩ v.2.2.1] ++
    rowsOps cfg reg (row + 1) (next s g) gs

theorem hashRows_run (cfg : Config C S) (reg row : ℕ) (xa : ACell C F) (ya : F) (gs : List (F × F))
    (hc : xa.cell = ⟨reg, cfg.da.xA, row⟩) (n : ℕ) :
    hashRows cfg reg row xa ya gs n = some ((⟨⟨reg, cfg.da.xA, (row + gs.length : ℕ)⟩,
      (gs.foldl next (xa.value, ya)).1⟩, (gs.foldl next (xa.value, ya)).2), n,
      rowsOps cfg reg row (xa.value, ya) gs) := by
  induction gs generalizing row xa ya with
  | nil =>
    obtain ⟨c, v⟩ := xa
    cases hc
    rfl
  | cons g gs ih =>
    have h := ih (row + 1) ⟨⟨reg, cfg.da.xA, (row + 1 : ℕ)⟩, (rowVals g xa.value ya).2.2.1⟩
      (rowVals g xa.value ya).2.2.2 rfl
    rw [show row + 1 + gs.length = row + (g :: gs).length by simp; omega] at h
    unfold hashRows
    refine Eq.trans (bind_of (n' := n) (ops₁ := [.advice ⟨reg, cfg.da.xP, row⟩ g.1]) rfl ?_)
      (rfl : _ = some (_, _, [_] ++ ([_] ++ ([_] ++ ([_] ++ _)))))
    refine bind_of (n' := n) (ops₁ := [_]) rfl ?_
    refine bind_of (n' := n) (ops₁ := [_]) rfl ?_
    refine bind_of (n' := n) (ops₁ := [_]) rfl ?_
    exact h

theorem fixRows_run (reg : ℕ) (col : C) (offset : ℕ) (v : F) (n m : ℕ) :
    (fixRows reg col offset v n : M C S F Unit) m
      = some ((), m, (List.range n).map fun i => .fixed ⟨reg, col, ((offset + i : ℕ) : ℤ)⟩ v) := by
  induction n with
  | zero => rfl
  | succ n ih =>
    unfold fixRows
    rw [List.range_succ, List.map_append]
    exact bind_of ih rfl

end

variable {p : ℕ} [Fact p.Prime] {b : ZMod p}

/-- The cells of the running sum of a piece. -/
def pieceZs (reprBits K : ℕ) (cfg : Config C S) (reg offset : ℕ) (piece : Piece C (ZMod p)) :
    List (ACell C (ZMod p)) :=
  ⟨⟨reg, cfg.bits, offset⟩, piece.cell.value⟩ ::
    sumCells reg cfg.bits ((2 ^ K : ℕ) : ZMod p)⁻¹ offset piece.cell.value
      ((words reprBits K piece.cell.value piece.numWords).dropLast.map fun (w : ℕ) => (w : ZMod p))

/-- The generators of a piece. -/
def pieceGens (reprBits K : ℕ) (gens : ℕ → ZMod p × ZMod p) (piece : Piece C (ZMod p)) :
    List (ZMod p × ZMod p) :=
  (words reprBits K piece.cell.value piece.numWords).map gens

/-- The operations of a piece. -/
def pieceOps (reprBits K : ℕ) (gens : ℕ → ZMod p × ZMod p) (cfg : Config C S) (reg offset : ℕ)
    (piece : Piece C (ZMod p)) (s : ZMod p × ZMod p) (final : Bool) : List (Op C S (ZMod p)) :=
  ((List.range piece.numWords).map fun i => .enable cfg.qS1 reg ((offset + i : ℕ) : ℤ)) ++
  ((List.range (piece.numWords - 1)).map fun i =>
    .fixed ⟨reg, cfg.qS2, ((offset + i : ℕ) : ℤ)⟩ 1) ++
  [.fixed ⟨reg, cfg.qS2, ((offset + piece.numWords - 1 : ℕ) : ℤ)⟩ (if final then 2 else 0),
   .advice ⟨reg, cfg.bits, offset⟩ piece.cell.value,
   .equal ⟨reg, cfg.bits, offset⟩ piece.cell.cell] ++
  ((pieceZs reprBits K cfg reg offset piece).tail.map fun c => .advice c.cell c.value) ++
  rowsOps cfg reg offset s (pieceGens reprBits K gens piece)

/-- What `hash_piece` asserts of a piece. -/
def PieceOk (reprBits K : ℕ) (piece : Piece C (ZMod p)) : Prop :=
  piece.numWords ≠ 0 ∧ K ≠ 0 ∧
    (words reprBits K piece.cell.value piece.numWords).length = piece.numWords

theorem hashPiece_run {reprBits K : ℕ} {gens : ℕ → ZMod p × ZMod p} {cfg : Config C S}
    {reg offset : ℕ} {piece : Piece C (ZMod p)} {xa : ACell C (ZMod p)} {ya : ZMod p} {final : Bool}
    (hc : xa.cell = ⟨reg, cfg.da.xA, offset⟩) (hok : PieceOk reprBits K piece) (n : ℕ) :
    hashPiece reprBits K gens cfg reg offset piece xa ya final n
      = some ((⟨⟨reg, cfg.da.xA, (offset + piece.numWords : ℕ)⟩,
          ((pieceGens reprBits K gens piece).foldl next (xa.value, ya)).1⟩,
          ((pieceGens reprBits K gens piece).foldl next (xa.value, ya)).2,
          pieceZs reprBits K cfg reg offset piece), n,
        pieceOps reprBits K gens cfg reg offset piece (xa.value, ya) final) := by
  obtain ⟨hN, hK, hl⟩ := hok
  have hrows := hashRows_run cfg reg offset xa ya (pieceGens reprBits K gens piece) hc n
  have hgl : (pieceGens reprBits K gens piece).length = piece.numWords := by
    simp [pieceGens, hl]
  rw [hgl] at hrows
  have hsum := assignSums_run (S := S) reg cfg.bits ((2 ^ K : ℕ) : ZMod p)⁻¹ offset
    ⟨⟨reg, cfg.bits, offset⟩, piece.cell.value⟩
    ((words reprBits K piece.cell.value piece.numWords).dropLast.map fun (w : ℕ) => (w : ZMod p)) n
  unfold hashPiece
  have e : pieceOps reprBits K gens cfg reg offset piece (xa.value, ya) final
      = ((List.range piece.numWords).map fun i => .enable cfg.qS1 reg ((offset + i : ℕ) : ℤ)) ++
        ([] ++ (((List.range (piece.numWords - 1)).map fun i =>
          .fixed ⟨reg, cfg.qS2, ((offset + i : ℕ) : ℤ)⟩ 1) ++
        ([.fixed ⟨reg, cfg.qS2, ((offset + piece.numWords - 1 : ℕ) : ℤ)⟩ (if final then 2 else 0)] ++
        ([] ++ ([] ++ ([.advice ⟨reg, cfg.bits, offset⟩ piece.cell.value,
          .equal ⟨reg, cfg.bits, offset⟩ piece.cell.cell] ++
        (((pieceZs reprBits K cfg reg offset piece).tail.map fun c => .advice c.cell c.value) ++
        (rowsOps cfg reg offset (xa.value, ya) (pieceGens reprBits K gens piece) ++ [])))))))) := by
    unfold pieceOps
    simp only [List.append_assoc, List.nil_append, List.append_nil, List.cons_append]
  rw [e]
  refine bind_of (enableRows_run cfg.qS1 reg offset piece.numWords n) ?_
  refine bind_of (assert_of hN n) ?_
  refine bind_of (fixRows_run reg cfg.qS2 offset 1 (piece.numWords - 1) n) ?_
  refine bind_of (n' := n) rfl ?_
  refine bind_of (assert_of hK n) ?_
  refine bind_of (assert_of hl n) ?_
  refine bind_of (a := (⟨⟨reg, cfg.bits, offset⟩, piece.cell.value⟩ : ACell C (ZMod p)))
    (n' := n) rfl ?_
  refine bind_of hsum ?_
  exact bind_of hrows rfl

theorem hashPiece_some {reprBits K : ℕ} {gens : ℕ → ZMod p × ZMod p} {cfg : Config C S}
    {reg offset : ℕ} {piece : Piece C (ZMod p)} {xa : ACell C (ZMod p)} {ya : ZMod p} {final : Bool}
    {n : ℕ} {r} (h : hashPiece reprBits K gens cfg reg offset piece xa ya final n = some r) :
    PieceOk reprBits K piece := by
  obtain ⟨a, m, o⟩ := r
  unfold hashPiece at h
  obtain ⟨_, _, _, _, -, h, -⟩ := bind_some h
  obtain ⟨_, _, _, _, h1, h, -⟩ := bind_some h
  obtain ⟨_, _, _, _, -, h, -⟩ := bind_some h
  obtain ⟨_, _, _, _, -, h, -⟩ := bind_some h
  obtain ⟨_, _, _, _, h2, h, -⟩ := bind_some h
  obtain ⟨_, _, _, _, h3, h, -⟩ := bind_some h
  exact ⟨(assert_some h1).1, (assert_some h2).1, (assert_some h3).1⟩

/-- The number of rows of a message. -/
def rowsOf (message : List (Piece C (ZMod p))) : ℕ := (message.map Piece.numWords).sum

/-- The generators of a message. -/
def allGens (reprBits K : ℕ) (gens : ℕ → ZMod p × ZMod p) (message : List (Piece C (ZMod p))) :
    List (ZMod p × ZMod p) :=
  message.flatMap (pieceGens reprBits K gens)

/-- The operations of a message. -/
def piecesOps (reprBits K : ℕ) (gens : ℕ → ZMod p × ZMod p) (cfg : Config C S) (reg : ℕ) :
    ℕ → List (Piece C (ZMod p)) → ZMod p × ZMod p → List (Op C S (ZMod p))
  | _, [], _ => []
  | offset, piece :: rest, s =>
    pieceOps reprBits K gens cfg reg offset piece s rest.isEmpty ++
    piecesOps reprBits K gens cfg reg (offset + piece.numWords) rest
      ((pieceGens reprBits K gens piece).foldl next s)

/-- The cells of the running sums of a message. -/
def piecesZs (reprBits K : ℕ) (cfg : Config C S) (reg : ℕ) :
    ℕ → List (Piece C (ZMod p)) → List (List (ACell C (ZMod p)))
  | _, [] => []
  | offset, piece :: rest => pieceZs reprBits K cfg reg offset piece ::
      piecesZs reprBits K cfg reg (offset + piece.numWords) rest

theorem hashPieces_run {reprBits K : ℕ} {gens : ℕ → ZMod p × ZMod p} {cfg : Config C S}
    {reg offset : ℕ} {message : List (Piece C (ZMod p))} {xa : ACell C (ZMod p)} {ya : ZMod p}
    (hc : xa.cell = ⟨reg, cfg.da.xA, offset⟩) (hok : ∀ P ∈ message, PieceOk reprBits K P) (n : ℕ) :
    hashPieces reprBits K gens cfg reg offset message xa ya n
      = some ((offset + rowsOf message, ⟨⟨reg, cfg.da.xA, (offset + rowsOf message : ℕ)⟩,
          ((allGens reprBits K gens message).foldl next (xa.value, ya)).1⟩,
          ((allGens reprBits K gens message).foldl next (xa.value, ya)).2,
          piecesZs reprBits K cfg reg offset message), n,
        piecesOps reprBits K gens cfg reg offset message (xa.value, ya)) := by
  induction message generalizing offset xa ya with
  | nil =>
    obtain ⟨c, v⟩ := xa
    cases hc
    rfl
  | cons P rest ih =>
    have h1 := hashPiece_run (gens := gens) (ya := ya) (final := rest.isEmpty) hc
      (hok P (by simp)) n
    have h2 := ih (offset := offset + P.numWords)
      (xa := ⟨⟨reg, cfg.da.xA, (offset + P.numWords : ℕ)⟩,
        ((pieceGens reprBits K gens P).foldl next (xa.value, ya)).1⟩)
      (ya := ((pieceGens reprBits K gens P).foldl next (xa.value, ya)).2) rfl
      fun Q hQ => hok Q (by simp [hQ])
    have e : offset + P.numWords + rowsOf rest = offset + rowsOf (P :: rest) := by
      simp [rowsOf]; omega
    rw [e] at h2
    unfold hashPieces
    refine (bind_of h1 (bind_of h2 rfl)).trans ?_
    simp only [allGens, List.flatMap_cons, List.foldl_append, List.append_nil, piecesOps, piecesZs]

theorem hashPieces_some {reprBits K : ℕ} {gens : ℕ → ZMod p × ZMod p} {cfg : Config C S}
    {reg offset : ℕ} {message : List (Piece C (ZMod p))} {xa : ACell C (ZMod p)} {ya : ZMod p}
    {n : ℕ} {r} (h : hashPieces reprBits K gens cfg reg offset message xa ya n = some r) :
    ∀ P ∈ message, PieceOk reprBits K P := by
  induction message generalizing offset xa ya n r with
  | nil => simp
  | cons P rest ih =>
    obtain ⟨a, m, o⟩ := r
    unfold hashPieces at h
    obtain ⟨_, _, _, _, h1, h, -⟩ := bind_some h
    obtain ⟨_, _, _, _, h2, h, -⟩ := bind_some h
    intro Q hQ
    rcases List.mem_cons.1 hQ with rfl | hQ
    · exact hashPiece_some h1
    · exact ih h2 Q hQ

/-- The operations after the initialization. -/
def hashOps (reprBits K : ℕ) (gens : ℕ → ZMod p × ZMod p) (cfg : Config C S) (reg offset : ℕ)
    (message : List (Piece C (ZMod p))) (s : ZMod p × ZMod p) : List (Op C S (ZMod p)) :=
  piecesOps reprBits K gens cfg reg offset message s ++
  [.advice ⟨reg, cfg.da.lambda1, (offset + rowsOf message : ℕ)⟩
     ((allGens reprBits K gens message).foldl next s).2,
   .advice ⟨reg, cfg.da.lambda2, (offset + rowsOf message : ℕ)⟩ 0,
   .advice ⟨reg, cfg.da.xP, (offset + rowsOf message : ℕ)⟩ 0]

/-- The point returned. -/
def hashOut (reprBits K : ℕ) (gens : ℕ → ZMod p × ZMod p) (cfg : Config C S) (reg offset : ℕ)
    (message : List (Piece C (ZMod p))) (s : ZMod p × ZMod p) : EccPoint C (ZMod p) :=
  ⟨⟨⟨reg, cfg.da.xA, (offset + rowsOf message : ℕ)⟩,
    ((allGens reprBits K gens message).foldl next s).1⟩,
   ⟨⟨reg, cfg.da.lambda1, (offset + rowsOf message : ℕ)⟩,
    ((allGens reprBits K gens message).foldl next s).2⟩⟩

theorem hashFrom_run {reprBits K : ℕ} {gens : ℕ → ZMod p × ZMod p} {cfg : Config C S}
    {reg offset : ℕ} {message : List (Piece C (ZMod p))} {xa : ACell C (ZMod p)} {ya : ZMod p}
    (hc : xa.cell = ⟨reg, cfg.da.xA, offset⟩) (hok : ∀ P ∈ message, PieceOk reprBits K P)
    (hx : ((allGens reprBits K gens message).foldl next (xa.value, ya)).1 ≠ 0)
    (hy : ((allGens reprBits K gens message).foldl next (xa.value, ya)).2 ≠ 0) (n : ℕ) :
    hashFrom reprBits K gens cfg reg message (offset, xa, ya) n
      = some ((hashOut reprBits K gens cfg reg offset message (xa.value, ya),
          piecesZs reprBits K cfg reg offset message), n,
        hashOps reprBits K gens cfg reg offset message (xa.value, ya)) := by
  unfold hashFrom hashAllPieces
  have h := hashPieces_run (gens := gens) (ya := ya) hc hok n
  have e : hashOps reprBits K gens cfg reg offset message (xa.value, ya)
      = (piecesOps reprBits K gens cfg reg offset message (xa.value, ya) ++
        ([.advice ⟨reg, cfg.da.lambda1, (offset + rowsOf message : ℕ)⟩
          ((allGens reprBits K gens message).foldl next (xa.value, ya)).2] ++
        ([.advice ⟨reg, cfg.da.lambda2, (offset + rowsOf message : ℕ)⟩ 0] ++
        ([.advice ⟨reg, cfg.da.xP, (offset + rowsOf message : ℕ)⟩ 0] ++ [])))) ++ ([] ++ []) := by
    unfold hashOps
    simp only [List.append_nil, List.cons_append, List.nil_append]
  rw [e]
  refine bind_of (a := (hashOut reprBits K gens cfg reg offset message (xa.value, ya),
    piecesZs reprBits K cfg reg offset message)) (n' := n) ?_ ?_
  · refine bind_of h ?_
    refine bind_of (n' := n) rfl ?_
    refine bind_of (n' := n) rfl ?_
    refine bind_of (n' := n) rfl ?_
    rfl
  · refine bind_of (assert_of ?_ n) rfl
    exact ⟨hx, hy⟩

theorem hashFrom_some {reprBits K : ℕ} {gens : ℕ → ZMod p × ZMod p} {cfg : Config C S}
    {reg offset : ℕ} {message : List (Piece C (ZMod p))} {xa : ACell C (ZMod p)} {ya : ZMod p}
    (hc : xa.cell = ⟨reg, cfg.da.xA, offset⟩) {n : ℕ} {r}
    (h : hashFrom reprBits K gens cfg reg message (offset, xa, ya) n = some r) :
    (∀ P ∈ message, PieceOk reprBits K P) ∧
    r = ((hashOut reprBits K gens cfg reg offset message (xa.value, ya),
          piecesZs reprBits K cfg reg offset message), n,
        hashOps reprBits K gens cfg reg offset message (xa.value, ya)) := by
  have h0 := h
  obtain ⟨a, m, o⟩ := r
  unfold hashFrom hashAllPieces at h
  obtain ⟨a1, n1, o1, o2, h1, h2, -⟩ := bind_some h
  obtain ⟨a3, n3, o3, o4, h3, h4, e4⟩ := bind_some h1
  have hok := hashPieces_some h3
  have h5 := hashPieces_run (gens := gens) (ya := ya) hc hok n
  rw [h5] at h3
  cases h3
  cases h4
  obtain ⟨a6, n6, o6, o7, h6, h7, -⟩ := bind_some h2
  obtain ⟨⟨hx, hy⟩, -, -⟩ := assert_some h6
  refine ⟨hok, ?_⟩
  rw [hashFrom_run hc hok hx hy] at h0
  exact (Option.some.inj h0).symm

end Verif.Sinsemilla
