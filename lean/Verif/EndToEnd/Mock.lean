import Verif.EndToEnd.Simple

/-!
# What acceptance by the mock prover says about a circuit (C86)

`mock_accepts` (C28) is about the rows of the columns.  Here: about the regions of the circuit, as
its gadgets see them, and the values they assign.
-/

namespace Verif.EndToEnd

open Verif.Cs (Cs Column)
open Verif.ExprEval (Cols)
open Verif.Floor (ROp COp Owner)
open Verif.Layout
open Verif.Link
open Verif.Mock (assignment)
open Verif.Region (Grid Gates LookupArg SatLookup Honest)
open Verif.Rows

variable {C S F : Type} [Field F] [LinearOrder F]
  {ι : C → Column} {σ : S → ℕ} {gates : Gates C S F} {lookups : List (LookupArg C S F)}
  {tables : ℕ → Prop} {constants : List ℕ}

/-- **C86**: if the mock prover accepts a circuit, then the values the circuit assigns meet every gate,
equality, constant, fixed value and lookup its regions ask for, and those in the cells constrained to
the instance are the instance.  `ops` are the calls on the backend with those that enter and leave
regions anywhere. -/
theorem mock_circuit (hι : Function.Injective ι) {k : ℕ} (hk : k ≤ 64) {cs : Cs F}
    {simple : ℕ → Bool} (hconf : Configured cs (2 ^ k) simple) {gops : List (Region.Op C S F)}
    {regions : List (List (ROp F))} {starts : List ℕ} {calls : List (Owner × COp F)} {ops : List (Op F)}
    (hplan : Planned constants regions starts calls)
    (hcirc : ∀ t : Cols F, t.fixed = fixedCells cs (2 ^ k) (ops.filter Simple.body) →
      Layout.Circuit ι σ gates lookups gops regions starts calls tables (ops.filter Simple.body) cs
        (2 ^ k) t)
    (hassigns : Assigns calls (ops.filter Simple.body)) (hcons : ∃ G : Grid C F, Honest G gops)
    {infos : List Mock.GateInfo} {inst : List (List F)}
    (h : mock cs (2 ^ k) infos inst ops = some (.ok ())) :
    ∃ G : Grid C F, Honest G gops ∧ Region.Sat gates G gops ∧
      (∀ l ∈ lookups, ∀ reg, SatLookup l G gops reg) ∧
      ∀ (i : ℕ) r, regions[i]? = some r → ∀ cell column row, ROp.inst cell column row ∈ r →
        ∀ c, IsCell ι c cell → G.at c = (inst.getD column []).getD row 0 := by
  unfold mock at h
  obtain ⟨s₀, h0, h⟩ := Option.bind_eq_some_iff.1 h
  obtain ⟨s, h1, h⟩ := Option.bind_eq_some_iff.1 h
  obtain ⟨⟨cs₁, s'⟩, h2, h⟩ := Option.bind_eq_some_iff.1 h
  have hsat := Mock.mock_accepts cs hconf.reach hconf.built hconf.fixed
    (fun c hc hkd => by have := hconf.perm hc; rw [hkd] at this; exact this) simple
    hconf.flagG hconf.flagL hconf.char k hk _ _ infos s₀ s cs₁ s' h0 h1 h2 h (fun _ _ => 0)
  have hsame : SameCircuit ops (ops.filter Simple.body) := by
    unfold SameCircuit
    rw [List.filter_filter]
    congr 1
    funext o
    cases o <;> rfl
  have hassign : assignment (2 ^ k - (cs.blindingFactors + 1)) inst ops (fun _ _ => 0) =
      assignment (2 ^ k - (cs.blindingFactors + 1)) inst (ops.filter Simple.body) (fun _ _ => 0) := by
    simp only [assignment, lastWrite, ← List.filter_reverse]
    congr 1
    · funext c r
      rw [Simple.findSome?_body rfl rfl]
    · funext c r
      rw [Simple.findSome?_body rfl rfl]
  have hm := meets_same hsame ⟨hsat.gates, hsat.lookups, hsat.copies⟩
  rw [hassign] at hm
  have hc := hcirc (assignment (2 ^ k - (cs.blindingFactors + 1)) inst (ops.filter Simple.body)
    fun _ _ => 0) rfl
  obtain ⟨g1, g2, g3⟩ := hplan.laid.sound hc hm
  exact ⟨_, hplan.laid.honest hc (witness_of hι hplan hcirc hassigns hcons _), g1, g2, g3⟩

/-- The numbers of the tutorial, which the mock prover accepts. -/
example : ∃ G : Grid Simple.Col ℚ, Honest G (Simple.regionOps 7 2 3) ∧
    Region.Sat Simple.gates G (Simple.regionOps 7 2 3) := by
  have hex := (Simple.exec_of (7 : ℚ) 2 3).2 (2 ^ 4) (by decide)
  have hb : backends (fun _ => true) 1 [] (Simple.calls (7 : ℚ) 2 3) =
    Simple.mainOps.filter Simple.body := rfl
  rw [hb] at hex
  obtain ⟨G, g1, g2, -⟩ := mock_circuit (k := 4) (infos := Simple.mainInfos) (inst := [[252]])
    Subtype.val_injective (by decide)
    (Simple.configured (by decide) fun i h _ => Nat.cast_ne_zero.2 h.ne') hex.plan hex.circuit
    hex.assigns hex.consistent (by decide +kernel)
  exact ⟨G, g1, g2⟩

/-- **C86** for the Poseidon circuit of C83: there is a constraint system in which it has executions
for all messages with their hashes, and the mock prover accepts it only with the hash of its message
as the instance. -/
theorem Preimage.mock_means {r : ℕ} {P : Poseidon.Spec F (r + 1)} (h : Pow5.Good (config r) P)
    (hr : 0 < r) (hchar : ∀ i : ℕ, 0 < i → i ≤ 9 → (i : F) ≠ 0) :
    ∃ (cs : Cs F) (N : ℕ), ∀ k, N ≤ 2 ^ k → k ≤ 64 →
      (∀ message digest, Poseidon.hash P r (List.ofFn message) = some digest →
        ∃ rops gops regions starts calls, execute P message = some rops ∧
          Execution (Subtype.val : Col r → Column) (Fin.val : Fin 3 → ℕ) (Pow5.gates (config r) P) []
            (· = 2 * r + 2) [r + 1] cs (2 ^ k) [[digest]] rops gops regions starts calls) ∧
      ∀ message ops, execute P message = some (ops.filter Simple.body) → ∀ infos digest,
        mock cs (2 ^ k) infos [[digest]] ops = some (.ok ()) →
        Poseidon.hash P r (List.ofFn message) = some digest := by
  obtain ⟨cs, starts, N, c1, c2, c3, c4, c5⟩ := exists_circuit h hr
  refine ⟨cs, N, fun k hk hk' => ⟨fun message digest hd => ?_,
    fun message ops hops infos digest hm => ?_⟩⟩
  · obtain ⟨out, n, gops, calls, rops, d1, d2, d3, d4, d5, d6, d7⟩ := c5 message
    exact ⟨_, _, _, _, _, d2, d7 (2 ^ k) [[digest]] hk hd⟩
  have hconf : Configured cs (2 ^ k) (fun _ => true) := c1.configured Nat.one_le_two_pow hchar
  obtain ⟨out, n, gops, calls, rops, d1, d2, d3, d4, d5, d6, d7⟩ := c5 message
  rw [hops] at d2
  obtain rfl := Option.some.inj d2
  obtain ⟨out', n', ops', s1, s2, s3, -⟩ := synthesize_ok h hr message
  have hex := d7 (2 ^ k) [[out'.value]] hk s3
  obtain ⟨G, g1, -, -, g4⟩ := mock_circuit Subtype.val_injective hk' hconf hex.plan hex.circuit
    hex.assigns hex.consistent hm
  have hl : (split (Subtype.val : Col r → Column) (Fin.val : Fin 3 → ℕ) n gops).length = n := by
    simp [split]
  have hin := g4 n [.inst (cellOf Subtype.val out.cell) 0 0] (by
    unfold splitInst
    rw [List.getElem?_append_right (by omega), hl]
    simp) _ _ _ (List.mem_singleton.2 rfl) out.cell (isCell_cellOf d1.1)
  rw [d6 G g1, hin]
  rfl

end Verif.EndToEnd
