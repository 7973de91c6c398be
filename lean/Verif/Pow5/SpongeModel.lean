import Verif.Pow5.Model

/-!
# Model of the Poseidon sponge gadget, `halo2_gadgets/src/poseidon.rs`, over the chip of
`poseidon/pow5.rs`

`[Option<PaddedWord<F>>; RATE]` is a list of length `r`.
-/

namespace Verif.Pow5

open Verif.Region Verif.Poseidon

variable {C S F : Type} [Field F] {r : ℕ}

/-- `PaddedWord`: poseidon.rs 20-25. -/
inductive PaddedWord (C F : Type)
  | message (a : ACell C F)
  | padding (v : F)

/-- `initial_state`: pow5.rs 281-312.  The loop over the rate and the final word are one loop
here. -/
def initialState (cfg : Config C S r) (cap : F) : M C S F (Words C F r) :=
  assignRegion fun reg => tabulate (r + 1) fun i =>
    assignAdviceFromConstant reg (cfg.state i) 0 (if i.1 < r then 0 else cap)

/-- The closure `load_input_word` of `add_input`: pow5.rs 343-373. -/
def loadInput (cfg : Config C S r) (reg : ℕ) (i : Fin r) :
    Option (PaddedWord C F) → M C S F (ACell C F)
  | some (.message a) => do
    let var ← assignAdvice reg (cfg.state i.castSucc) 1 a.value
    constrainEqual a.cell var.cell
    pure var
  | some (.padding v) => do
    let c ← assignFixed reg (cfg.rcB i.castSucc) 1 v
    let var ← assignAdvice reg (cfg.state i.castSucc) 1 v
    constrainEqual c.cell var.cell
    pure var
  | none => unwrap none

/-- `add_input`: pow5.rs 314-400. -/
def addInput (cfg : Config C S r) (initial : Words C F r) (input : List (Option (PaddedWord C F))) :
    M C S F (Words C F r) :=
  assignRegion fun reg => do
    enable cfg.sPadAndAdd reg 1
    let initial ← load cfg reg initial
    let input ← tabulate r fun i => loadInput cfg reg i (input.getD i none)
    tabulate (r + 1) fun i => assignAdvice reg (cfg.state i) 2
      ((initial i).value + if h : i.1 < r then (input ⟨i.1, h⟩).value else 0)

/-- `get_output`: pow5.rs 402-405. -/
def getOutput (state : Words C F r) : List (Option (ACell C F)) :=
  List.ofFn fun i : Fin r => some (state i.castSucc)

/-- `poseidon_sponge`: poseidon.rs 100-118. -/
def poseidonSponge (cfg : Config C S r) (P : Spec F (r + 1)) (state : Words C F r)
    (input : Option (List (Option (PaddedWord C F)))) :
    M C S F (Words C F r × List (Option (ACell C F))) := do
  let state ← match input with
    | none => pure state
    | some input => addInput cfg state input
  let state ← permute cfg P state
  pure (state, getOutput state)

/-- `Sponge` in absorbing mode: poseidon.rs 120-135. -/
structure Absorb (C F : Type) (r : ℕ) where
  mode : List (Option (PaddedWord C F))
  state : Words C F r

/-- `Sponge` in squeezing mode: poseidon.rs 120-135. -/
structure Squeeze (C F : Type) (r : ℕ) where
  mode : List (Option (ACell C F))
  state : Words C F r

/-- `Sponge::new`: poseidon.rs 147-154. -/
def Absorb.new (cfg : Config C S r) (cap : F) : M C S F (Absorb C F r) := do
  let state ← initialState cfg cap
  pure ⟨List.replicate r none, state⟩

/-- `Sponge::absorb`: poseidon.rs 157-179. -/
def Absorb.absorb (cfg : Config C S r) (P : Spec F (r + 1)) (s : Absorb C F r)
    (v : PaddedWord C F) : M C S F (Absorb C F r) :=
  match absorbBuf s.mode v with
  | some m => pure { s with mode := m }
  | none => do
    let (state, _) ← poseidonSponge cfg P s.state (some s.mode)
    let mode ← unwrap (absorbBuf (List.replicate r none) v)
    pure ⟨mode, state⟩

/-- `Sponge::finish_absorbing`: poseidon.rs 182-201. -/
def Absorb.finish (cfg : Config C S r) (P : Spec F (r + 1)) (s : Absorb C F r) :
    M C S F (Squeeze C F r) := do
  let (state, mode) ← poseidonSponge cfg P s.state (some s.mode)
  pure ⟨mode, state⟩

/-- `Sponge::squeeze`: poseidon.rs 213-227.  The second iteration of the loop has a buffer of `r`
elements; if `r = 0` the loop never ends, which is `none` here. -/
def Squeeze.squeeze (cfg : Config C S r) (P : Spec F (r + 1)) (s : Squeeze C F r) :
    M C S F (ACell C F × Squeeze C F r) :=
  match squeezeBuf s.mode with
  | some (v, mode) => pure (v, { s with mode })
  | none => do
    let (state, mode) ← poseidonSponge cfg P s.state none
    let (v, mode) ← unwrap (squeezeBuf mode)
    pure (v, ⟨mode, state⟩)

/-- `Hash::init` and `Hash::hash`: poseidon.rs 244-285. -/
def hash (cfg : Config C S r) (P : Spec F (r + 1)) (message : List (ACell C F)) :
    M C S F (ACell C F) := do
  let sponge ← Absorb.new cfg (initialCapacityElement message.length)
  let pad ← unwrap (padding r message.length)
  let sponge ← (message.map PaddedWord.message ++ pad.map PaddedWord.padding).foldlM (Absorb.absorb cfg P) sponge
  let sponge ← sponge.finish cfg P
  let (v, _) ← sponge.squeeze cfg P
  pure v

/-- Squeezing several elements one after the other. -/
def Squeeze.many (cfg : Config C S r) (P : Spec F (r + 1)) :
    ℕ → Squeeze C F r → M C S F (List (ACell C F) × Squeeze C F r)
  | 0, s => pure ([], s)
  | m + 1, s => do
    let (v, s) ← s.squeeze cfg P
    let (vs, s) ← Squeeze.many cfg P m s
    pure (v :: vs, s)

/-- A whole run of the sponge gadget. -/
def run (cfg : Config C S r) (P : Spec F (r + 1)) (cap : F) (l : List (PaddedWord C F)) (m : ℕ) :
    M C S F (List (ACell C F)) := do
  let s ← Absorb.new cfg cap
  let s ← l.foldlM (Absorb.absorb cfg P) s
  let s ← s.finish cfg P
  let (vs, _) ← s.many cfg P m
  pure vs

end Verif.Pow5
