import Verif.Assigned.Model
import Verif.Assigned.Props
import Verif.Batch.Guard
import Verif.Batch.Model
import Verif.Batch.Props
import Verif.Commit.Bits
import Verif.Commit.Example
import Verif.Commit.Model
import Verif.Commit.Props
import Verif.Commit.Relation
import Verif.Commitment.Model
import Verif.Commitment.Props
import Verif.CondSwap.Example
import Verif.CondSwap.Model
import Verif.CondSwap.Props
import Verif.Copy.Lemmas
import Verif.Copy.Model
import Verif.Copy.Props
import Verif.Cost.Model
import Verif.Cost.Props
import Verif.Cost.Sets
import Verif.Cost.Written
import Verif.Cs.Model
import Verif.Cs.Props
import Verif.Domain.Lemmas
import Verif.Domain.Model
import Verif.Domain.Props
import Verif.Ecc.Curve
import Verif.Ecc.Example
import Verif.Ecc.Model
import Verif.Ecc.Props
import Verif.EccApi.Complete
import Verif.EccApi.Example
import Verif.EccApi.Lift
import Verif.EccApi.Local
import Verif.EccApi.Model
import Verif.EccApi.MulHonest
import Verif.EccApi.Props
import Verif.EccApi.Sound
import Verif.EccApi.Spec
import Verif.EccApi.Uses
import Verif.EndToEnd.Alike
import Verif.EndToEnd.Ecc
import Verif.EndToEnd.EccExample
import Verif.EndToEnd.Ends
import Verif.EndToEnd.Example
import Verif.EndToEnd.Exists
import Verif.EndToEnd.Makes
import Verif.EndToEnd.Mock
import Verif.EndToEnd.Preimage
import Verif.EndToEnd.Props
import Verif.EndToEnd.Simple
import Verif.EndToEnd.SimpleMock
import Verif.Evaluator.Model
import Verif.Evaluator.Props
import Verif.Expr.Model
import Verif.Expr.Props
import Verif.ExprEval.Model
import Verif.ExprEval.Props
import Verif.ExprEval.Rows
import Verif.Fft.Lemmas
import Verif.Fft.Model
import Verif.Fft.Props
import Verif.Floor.Erase
import Verif.Floor.FirstFit
import Verif.Floor.Model
import Verif.Floor.Props
import Verif.Floor.Single
import Verif.Floor.Slot
import Verif.Grain.Model
import Verif.Grain.Props
import Verif.Hiding.Column
import Verif.Hiding.Columns
import Verif.Hiding.Ipa
import Verif.Hiding.Multiopen
import Verif.Hiding.OpenRun
import Verif.Hiding.Opening
import Verif.Hiding.Prepared
import Verif.Hiding.Products
import Verif.Hiding.Props
import Verif.Hiding.Quotient
import Verif.Hiding.Steer
import Verif.Hiding.Steps
import Verif.Ipa.Lemmas
import Verif.Ipa.Model
import Verif.Ipa.Props
import Verif.Layout.Configure
import Verif.Layout.Laid
import Verif.Layout.Lemmas
import Verif.Layout.Model
import Verif.Layout.Poly
import Verif.Layout.Props
import Verif.Layout.Split
import Verif.Link.Example
import Verif.Link.Lemmas
import Verif.Link.Model
import Verif.Link.Props
import Verif.Link.Sound
import Verif.Lookup.Model
import Verif.Lookup.Props
import Verif.LookupPerm.Model
import Verif.LookupPerm.Props
import Verif.LookupRange.Example
import Verif.LookupRange.Model
import Verif.LookupRange.Props
import Verif.Mds.Model
import Verif.Mds.Props
import Verif.Merkle.Binding
import Verif.Merkle.Complete
import Verif.Merkle.Example
import Verif.Merkle.Model
import Verif.Merkle.Sound
import Verif.Merkle.Spec
import Verif.Mock.Accept
import Verif.Mock.Example
import Verif.Mock.Lookup
import Verif.Mock.Model
import Verif.Mock.Props
import Verif.Mock.Regions
import Verif.Mock.Reject
import Verif.Mock.Runs
import Verif.Mock.Tables
import Verif.Mock.Total
import Verif.Msm.Model
import Verif.Msm.Props
import Verif.Mul.Complete
import Verif.Mul.Honest
import Verif.Mul.Incomplete
import Verif.Mul.Model
import Verif.Mul.Overflow
import Verif.Mul.Program
import Verif.Mul.Props
import Verif.Mul.Scalar
import Verif.Mul.Skeleton
import Verif.Mul.Sound
import Verif.Mul.Step
import Verif.MulFixed.BaseComplete
import Verif.MulFixed.Complete
import Verif.MulFixed.Example
import Verif.MulFixed.Full
import Verif.MulFixed.Inner
import Verif.MulFixed.Instance
import Verif.MulFixed.Local
import Verif.MulFixed.Model
import Verif.MulFixed.Pallas
import Verif.MulFixed.ShortComplete
import Verif.MulFixed.Sound
import Verif.MulFixed.Spec
import Verif.MulFixed.Sums
import Verif.Multicore.Model
import Verif.Multicore.Props
import Verif.Multiexp.Lemmas
import Verif.Multiexp.Model
import Verif.Multiexp.Props
import Verif.Multiopen.Lemmas
import Verif.Multiopen.Model
import Verif.Multiopen.Props
import Verif.Multiopen.Sets
import Verif.Multiopen.Total
import Verif.P128.Constants
import Verif.P128.Fast
import Verif.P128.Generated
import Verif.P128.Model
import Verif.P128.Props
import Verif.Pasta.Curve
import Verif.Pasta.Prime
import Verif.Pasta.Props
import Verif.Permutation.Commit
import Verif.Permutation.Lemmas
import Verif.Permutation.Model
import Verif.Permutation.Props
import Verif.Plonk.Core
import Verif.Plonk.Degree
import Verif.Plonk.Lemmas
import Verif.Plonk.Model
import Verif.Plonk.Props
import Verif.Plonk.Sound
import Verif.Plonk.Soundness
import Verif.Plonk.Stages
import Verif.Plonk.Total
import Verif.PolyArith.Lemmas
import Verif.PolyArith.Model
import Verif.PolyArith.Props
import Verif.Poseidon.Model
import Verif.Poseidon.Props
import Verif.Pow5.Model
import Verif.Pow5.Props
import Verif.Pow5.Rounds
import Verif.Pow5.SpongeModel
import Verif.Pow5.SpongeProps
import Verif.Protocol.Combine
import Verif.Protocol.Instances
import Verif.Protocol.Model
import Verif.Protocol.Open
import Verif.Protocol.Products
import Verif.Protocol.Props
import Verif.Protocol.Queries
import Verif.Protocol.Sim
import Verif.Protocol.Stages
import Verif.Protocol.Total
import Verif.Region.Check
import Verif.Region.Consistent
import Verif.Region.Lemmas
import Verif.Region.Local
import Verif.Region.Model
import Verif.Rotation.Model
import Verif.Rotation.Props
import Verif.Rows.Lemmas
import Verif.Rows.MockProps
import Verif.Rows.Model
import Verif.Rows.Props
import Verif.Rows.Prover
import Verif.RunningSum.Example
import Verif.RunningSum.Model
import Verif.RunningSum.Props
import Verif.Selectors.Lemmas
import Verif.Selectors.Model
import Verif.Selectors.Props
import Verif.Selectors.Replace
import Verif.Sha256.Bits
import Verif.Sha256.CompGates
import Verif.Sha256.CompGrid
import Verif.Sha256.CompRun
import Verif.Sha256.CompSat
import Verif.Sha256.Constants
import Verif.Sha256.Example
import Verif.Sha256.GateSound
import Verif.Sha256.Gates
import Verif.Sha256.Model
import Verif.Sha256.Pasta
import Verif.Sha256.Props
import Verif.Sha256.Runs
import Verif.Sha256.SchedGates
import Verif.Sha256.SchedGrid
import Verif.Sha256.SchedRun
import Verif.Sha256.SchedSat
import Verif.Sha256.ShaProps
import Verif.Sha256.ShaRun
import Verif.Sha256.Sigma
import Verif.Sha256.Sound
import Verif.Sha256.Spec
import Verif.Sha256.Table
import Verif.Sha256.TableProps
import Verif.Sha256.Unsound
import Verif.Sha256.Values
import Verif.Sinsemilla.Complete
import Verif.Sinsemilla.Example
import Verif.Sinsemilla.Layout
import Verif.Sinsemilla.Local
import Verif.Sinsemilla.Model
import Verif.Sinsemilla.Program
import Verif.Sinsemilla.Props
import Verif.Sinsemilla.Sound
import Verif.Sinsemilla.Spec
import Verif.Sound.Evals
import Verif.Sound.Example
import Verif.Sound.Game
import Verif.Sound.Ipa
import Verif.Sound.Multiopen
import Verif.Sound.Open
import Verif.Sound.Protocol
import Verif.Sound.ProtocolExample
import Verif.Sound.Quot
import Verif.Sound.Reps
import Verif.Sound.Verifier
import Verif.Table.Model
import Verif.Table.Props
import Verif.Toy.Props
import Verif.Transcript.Model
import Verif.Transcript.Props
import Verif.Transcript.Sim
import Verif.Utilities.Model
import Verif.Utilities.Props
import Verif.Value.Model
import Verif.Value.Props
import Verif.Vanishing.Model
import Verif.Vanishing.Props
