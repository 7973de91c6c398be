import Mathlib.Data.List.FinRange
import Mathlib.Data.ZMod.Defs
import Mathlib.Logic.Function.Basic

/-!
# Model of `halo2_poseidon/src/grain.rs`

`none` is a panic; functions with a `fuel` argument also return `none` if the unbounded loop of
the code is not finished after `fuel` iterations.  Only the field of prime order is used
(`FieldType::PrimeOrder`).
-/

namespace Verif.Grain

/-- `Grain`: grain.rs 46-50.  The state is an array of `STATE = 80` bits. -/
structure Grain where
  state : Fin 80 → Bool
  nextBit : ℕ

/-- The closure `set_bits` of `new`: grain.rs 56-61.  `none`: `unwrap` of an index out of range. -/
def setBits (state : Fin 80 → Bool) (offset len value : ℕ) : Option (Fin 80 → Bool) :=
  (List.range len).foldlM (fun st i =>
    if h : offset + len - 1 - i < 80 then
      some (Function.update st ⟨offset + len - 1 - i, h⟩ ((value >>> i) &&& 1 != 0))
    else none) state

/-- `load_next_8_bits`: grain.rs 84-100.  The byte `new_bits` is given by its bits.  `rotate_left`
by 8 moves the bit at index `i + 8` (modulo 80) to index `i`. -/
def Grain.loadNext8Bits (g : Grain) : Option Grain := do
  let newBits : Fin 8 → Bool := fun i =>
    g.state ⟨i + 62, by omega⟩ ^^ g.state ⟨i + 51, by omega⟩ ^^ g.state ⟨i + 38, by omega⟩ ^^
      g.state ⟨i + 23, by omega⟩ ^^ g.state ⟨i + 13, by omega⟩ ^^ g.state ⟨i, by omega⟩
  let state : Fin 80 → Bool := fun i => g.state (i + 8)
  let nextBit ← if 8 ≤ g.nextBit then some (g.nextBit - 8) else none
  let state ← (List.finRange 8).foldlM (fun st (i : Fin 8) =>
    if h : nextBit + i.1 < 80 then some (Function.update st ⟨nextBit + i.1, h⟩ (newBits i))
    else none) state
  some ⟨state, nextBit⟩

/-- The initial state: grain.rs 55-67. -/
def initState (sboxTag numBits t rF rP : ℕ) : Option (Fin 80 → Bool) := do
  let state ← setBits (fun _ => true) 0 2 1
  let state ← setBits state 2 4 sboxTag
  let state ← setBits state 6 12 numBits
  let state ← setBits state 18 12 t
  let state ← setBits state 30 10 rF
  setBits state 40 10 rP

/-- The loop of `Grain::new` that discards bits: grain.rs 76-79. -/
def Grain.discard (m : ℕ) (g : Grain) : Option Grain :=
  (List.range m).foldlM (fun g _ => g.loadNext8Bits.map fun g => { g with nextBit := 80 }) g

/-- `Grain::new`: grain.rs 53-82.  The arguments of type `u16` are natural numbers. -/
def Grain.new (sboxTag numBits t rF rP : ℕ) : Option Grain :=
  (initState sboxTag numBits t rF rP).bind fun state => Grain.discard 20 ⟨state, 80⟩

/-- `get_next_bit`: grain.rs 102-109. -/
def Grain.getNextBit (g : Grain) : Option (Bool × Grain) := do
  let g ← if g.nextBit = 80 then g.loadNext8Bits else some g
  if h : g.nextBit < 80 then
    some (g.state ⟨g.nextBit, h⟩, { g with nextBit := g.nextBit + 1 })
  else none

/-- `Iterator::next`: grain.rs 173-181. -/
def Grain.next : ℕ → Grain → Option (Bool × Grain)
  | 0, _ => none
  | fuel + 1, g => do
    let (b, g) ← g.getNextBit
    if b then g.getNextBit
    else do
      let (_, g) ← g.getNextBit
      Grain.next fuel g

/-- `self.take(n)`, each bit with at most `fuel` iterations. -/
def Grain.take (fuel : ℕ) : ℕ → Grain → Option (List Bool × Grain)
  | 0, g => some ([], g)
  | n + 1, g => do
    let (b, g) ← g.next fuel
    let (bs, g) ← Grain.take fuel n g
    some (b :: bs, g)

/-- The number held by the bytes, in little-endian order, after the loop in `next_field_element`
and in `next_field_element_without_rejection`: grain.rs 125-131 and 158-164. -/
def toNat (bits : List Bool) : ℕ :=
  (bits.zipIdx).foldl (fun acc bi =>
    acc ||| (if bi.1 then 1 <<< (bits.length - 1 - bi.2) else 0)) 0

/-- `next_field_element`: grain.rs 112-137, for the field with `p` elements; `from_repr_vartime`
accepts exactly the numbers below `p`. -/
def Grain.nextFieldElement (p numBits bitFuel : ℕ) : ℕ → Grain → Option (ZMod p × Grain)
  | 0, _ => none
  | fuel + 1, g => do
    let (bits, g) ← g.take bitFuel numBits
    if toNat bits < p then some ((toNat bits : ZMod p), g)
    else Grain.nextFieldElement p numBits bitFuel fuel g

/-- `next_field_element_without_rejection`: grain.rs 143-167; `from_uniform_bytes` reduces modulo
`p`. -/
def Grain.nextFieldElementWithoutRejection (p numBits bitFuel : ℕ) (g : Grain) :
    Option (ZMod p × Grain) := do
  let (bits, g) ← g.take bitFuel numBits
  some ((toNat bits : ZMod p), g)

end Verif.Grain
