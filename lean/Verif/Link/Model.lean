import Verif.Rows.Model
import Verif.Selectors.Model
import Verif.Mock.Model
import Verif.Protocol.Model

/-!
# From a circuit's synthesis to keys, witnesses and the verdict of the mock prover

`halo2_proofs/src/plonk/keygen.rs`, `plonk/prover.rs` and `dev.rs`: the pieces modelled in
`Verif.Rows`, `Verif.Selectors`, `Verif.Plonk`, `Verif.Protocol` and `Verif.Mock`, in the order in
which the functions use them.  A synthesis is the list of calls it makes (see `Verif.Rows`); errors
it returns and panics are both `none`.
-/

namespace Verif.Link

open Verif.Assigned (batchInvertAssigned)
open Verif.Cs (Cs Column)
open Verif.Domain (Domain Consts)
open Verif.Rows (Op Keygen Witness runOps)
open Verif.Plonk (Pk)
open Verif.Protocol (Vk)
open Verif.Msm (Params)

variable {F A : Type} [Field F] [DecidableEq F]

/-- What `keygen_vk` and `keygen_pk` compute from the calls before they commit or transform: the
constraint system with compressed selectors, the fixed columns with the selector columns appended,
and the permutation.  keygen.rs 194-223 and 261-288. -/
def assemble (cs : Cs F) (n : ℕ) (ops : List (Op F)) :
    Option (Cs F × List (List F) × Copy.Assembly cs.permutation n) :=
  if n < cs.minimumRows then none
  else (runOps Keygen.step (Keygen.init cs n) ops).bind fun s =>
    (batchInvertAssigned s.fixed).bind fun fixed =>
    (Selectors.compressSelectors cs s.selectors).bind fun r =>
    if ∀ poly ∈ r.2.1, poly.length = n then some (r.1, fixed ++ r.2.1, s.perm) else none

/-- The keys of a circuit, and its domain and constraint system that the verifying key holds. -/
structure Keys (F A : Type) where
  domain : Domain F
  cs : Cs F
  pk : Pk F
  vk : Vk F A

/-- `keygen_vk` followed by `keygen_pk` for the same circuit: keygen.rs 188-345.  The domain is made
for the degree before compression (`create_domain`, 22-43); `repr` is `transcript_repr`
(plonk.rs 75-96: a hash of the key). -/
def keygen [AddCommGroup A] [Module F A] (threads : ℕ) (c : Consts F) (pr : Params A) (delta repr : F)
    (cs : Cs F) (ops : List (Op F)) : Option (Keys F A) :=
  (Verif.Domain.new c cs.degree pr.k).bind fun d =>
  (assemble cs pr.n ops).bind fun a =>
  let perms := Verif.Permutation.permPolys d.omega delta a.2.2.mapping
  (Verif.Protocol.keygenVk pr repr a.2.1 perms).bind fun vk =>
  (Verif.Plonk.keygenPk threads d a.1.blindingFactors a.2.1 perms).map fun pk =>
    { domain := d, cs := a.1, pk, vk }

/-- The advice columns `create_proof` obtains from a circuit, before blinding: prover.rs 269-289. -/
def adviceOf (cs : Cs F) (n : ℕ) (inst : List (List F)) (ops : List (Op F)) :
    Option (List (List F)) :=
  (runOps Witness.step (Witness.init cs n inst) ops).bind fun s => batchInvertAssigned s.advice

/-- `MockProver::run` followed by `verify`: dev.rs 485-904. -/
def mock [LinearOrder F] (cs : Cs F) (n : ℕ) (infos : List Mock.GateInfo) (inst : List (List F))
    (ops : List (Op F)) : Option (Except (List Mock.Failure) Unit) :=
  (Rows.Mock.init cs n inst).bind fun s => (runOps Rows.Mock.step s ops).bind fun s =>
  (Mock.finish cs s).bind fun r => Mock.verify r.1 infos r.2

end Verif.Link
