import Mathlib.Algebra.Field.Defs
import Mathlib.Data.Fintype.Basic
import Mathlib.Data.List.FinRange
import Mathlib.Logic.Function.Basic

/-!
# Model of the Poseidon primitive, `halo2_poseidon/src/lib.rs`

Arrays `[F; T]` are functions on `Fin T`, buffers `[Option<F>; RATE]` are lists, `none` in the
result of a function is a panic.
-/

namespace Verif.Poseidon

variable {F : Type} [Field F] {T : ℕ}

/-- `State<F, T>`: lib.rs 31. -/
abbrev State (F : Type) (T : ℕ) := Fin T → F

/-- What an implementation of the trait `Spec` provides: lib.rs 40-61 (`secure_mds` is only used
by `generate_constants`). -/
structure Spec (F : Type) (T : ℕ) where
  fullRounds : ℕ
  partialRounds : ℕ
  sbox : F → F
  roundConstants : List (Fin T → F)
  mds : Fin T → Fin T → F
  mdsInv : Fin T → Fin T → F

/-- The closure `apply_mds` of `permute`: lib.rs 114-124. -/
def applyMds (mds : Fin T → Fin T → F) (state : State F T) : State F T := fun i =>
  (List.finRange T).foldl (fun acc j => acc + mds i j * state j) 0

/-- The closure `full_round` of `permute`: lib.rs 126-131. -/
def fullRound (S : Spec F T) (state rcs : State F T) : State F T :=
  applyMds S.mds fun i => S.sbox (state i + rcs i)

/-- The closure `part_round` of `permute`: lib.rs 133-140. -/
def partRound [NeZero T] (S : Spec F T) (state rcs : State F T) : State F T :=
  let state : State F T := fun i => state i + rcs i
  applyMds S.mds (Function.update state 0 (S.sbox (state 0)))

/-- `permute`: lib.rs 106-151.  `state[0]` in a partial round needs a non-empty state. -/
def permute [NeZero T] (S : Spec F T) (state : State F T) : State F T :=
  let rf := S.fullRounds / 2
  let rp := S.partialRounds
  ((List.replicate rf (fullRound S) ++ List.replicate rp (partRound S)
    ++ List.replicate rf (fullRound S)).zip S.roundConstants).foldl (fun s r => r.1 s r.2) state

/-- `Absorbing::absorb`: lib.rs 219-228; `none` is `Err`, the buffer is full. -/
def absorbBuf {α : Type} : List (Option α) → α → Option (List (Option α))
  | [], _ => none
  | none :: l, v => some (some v :: l)
  | some a :: l, v => (absorbBuf l v).map (some a :: ·)

/-- `Squeezing::squeeze`: lib.rs 263-271; `none` if the buffer is empty. -/
def squeezeBuf {α : Type} : List (Option α) → Option (α × List (Option α))
  | [] => none
  | some a :: l => some (a, none :: l)
  | none :: l => (squeezeBuf l).map fun r => (r.1, none :: r.2)

/-- The loop of `poseidon_sponge` that adds the input: lib.rs 159-165.  `none`: an entry is
missing, `expect` panics. -/
def addInput (state : State F T) (input : List (Option F)) : Option (State F T) :=
  ((input.take T).mapM id).map fun vs i => state i + vs.getD i 0

/-- The output of `poseidon_sponge`: lib.rs 169-173. -/
def output {α : Type} (rate : ℕ) (state : Fin T → α) : List (Option α) :=
  List.ofFn fun i : Fin rate => if h : i.1 < T then some (state ⟨i.1, h⟩) else none

/-- `poseidon_sponge`: lib.rs 153-174. -/
def poseidonSponge [NeZero T] (S : Spec F T) (rate : ℕ) (state : State F T)
    (input : Option (List (Option F))) : Option (State F T × List (Option F)) := do
  let state ← match input with
    | none => some state
    | some input => addInput state input
  let state := permute S state
  some (state, output rate state)

/-- `Sponge`: lib.rs 275-287, in either mode. -/
structure Sponge (F : Type) (T : ℕ) where
  mode : List (Option F)
  state : State F T

/-- `Sponge::new`: lib.rs 293-307. -/
def Sponge.new (rate : ℕ) (initialCapacityElement : F) : Option (Sponge F T) :=
  if h : rate < T then
    some ⟨List.replicate rate none,
      Function.update (fun _ => 0) ⟨rate, h⟩ initialCapacityElement⟩
  else none

/-- `Sponge::absorb`: lib.rs 310-326. -/
def Sponge.absorb [NeZero T] (S : Spec F T) (rate : ℕ) (s : Sponge F T) (v : F) :
    Option (Sponge F T) :=
  match absorbBuf s.mode v with
  | some m => some { s with mode := m }
  | none => do
    let (state, _) ← poseidonSponge S rate s.state (some s.mode)
    let mode ← absorbBuf (List.replicate rate none) v
    some ⟨mode, state⟩

/-- `Sponge::finish_absorbing`: lib.rs 329-344. -/
def Sponge.finishAbsorbing [NeZero T] (S : Spec F T) (rate : ℕ) (s : Sponge F T) :
    Option (Sponge F T) := do
  let (state, mode) ← poseidonSponge S rate s.state (some s.mode)
  some ⟨mode, state⟩

/-- `Sponge::squeeze`: lib.rs 351-367.  The second iteration of the loop has a buffer of `rate`
elements; if `rate = 0` the loop never ends, which is `none` here. -/
def Sponge.squeeze [NeZero T] (S : Spec F T) (rate : ℕ) (s : Sponge F T) :
    Option (F × Sponge F T) :=
  match squeezeBuf s.mode with
  | some (v, mode) => some (v, { s with mode })
  | none => do
    let (state, mode) ← poseidonSponge S rate s.state none
    let (v, mode) ← squeezeBuf mode
    some (v, ⟨mode, state⟩)

/-- `ConstantLength::initial_capacity_element`: lib.rs 398-402. -/
def initialCapacityElement (L : ℕ) : F := ((L * 2 ^ 64 : ℕ) : F)

/-- `ConstantLength::padding`: lib.rs 404-412, called with `input_len = L`.  `none`: division by
zero. -/
def padding (rate L : ℕ) : Option (List F) :=
  if rate = 0 then none
  else
    let k := (L + rate - 1) / rate
    some (List.replicate (k * rate - L) 0)

/-- `Hash::hash`, with `Hash::init`: lib.rs 445-465. -/
def hash [NeZero T] (S : Spec F T) (rate : ℕ) (message : List F) : Option F := do
  let sponge ← Sponge.new rate (initialCapacityElement message.length)
  let pad ← padding rate message.length
  let sponge ← (message ++ pad).foldlM (Sponge.absorb S rate) sponge
  let sponge ← sponge.finishAbsorbing S rate
  let (v, _) ← sponge.squeeze S rate
  some v

/-- Squeezing several elements one after the other. -/
def Sponge.squeezeMany [NeZero T] (S : Spec F T) (rate : ℕ) :
    ℕ → Sponge F T → Option (List F × Sponge F T)
  | 0, s => some ([], s)
  | m + 1, s => do
    let (v, s) ← s.squeeze S rate
    let (vs, s) ← Sponge.squeezeMany S rate m s
    some (v :: vs, s)

/-- A whole run of the sponge: absorbing a sequence, then squeezing `m` elements. -/
def Sponge.run [NeZero T] (S : Spec F T) (rate : ℕ) (cap : F) (l : List F) (m : ℕ) :
    Option (List F) := do
  let s ← Sponge.new rate cap
  let s ← l.foldlM (Sponge.absorb S rate) s
  let s ← s.finishAbsorbing S rate
  let (vs, _) ← s.squeezeMany S rate m
  some vs

end Verif.Poseidon
