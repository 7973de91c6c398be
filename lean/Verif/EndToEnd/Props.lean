import Verif.Layout.Split
import Verif.Link.Sound

/-!
# From the gadgets to the verifier (C81)

The theorems on gadgets, floor planners, backends and proof system put together: what an accepted
proof says about the regions of a circuit, and when an honest proof is accepted.
-/

namespace Verif.EndToEnd

open Verif.Assigned (Assigned)
open Verif.Cs (Cs Column)
open Verif.Domain (Domain Consts)
open Verif.ExprEval (Cols)
open Verif.Floor (ROp COp Owner)
open Verif.Layout
open Verif.Link
open Verif.Mock (assignment)
open Verif.Region (Grid Gates LookupArg SatLookup Honest)
open Verif.Rows
open Verif.Protocol Verif.Sound
open Verif.Msm Verif.Transcript Polynomial

/-- One of the two floor planners has laid the regions out. -/
def Planned {V : Type} (constants : List ℕ) (regions : List (List (ROp V))) (starts : List ℕ)
    (calls : List (Owner × COp V)) : Prop :=
  constants.Nodup ∧ Floor.v1 constants regions = .ok (starts, calls) ∨
    ∃ s, Floor.single constants regions = .ok (s, calls) ∧ starts = s.regions

theorem Planned.laid {V : Type} {constants : List ℕ} {regions : List (List (ROp V))}
    {starts : List ℕ} {calls : List (Owner × COp V)}
    (h : Planned constants regions starts calls) : Laid regions starts calls := by
  rcases h with ⟨h1, h2⟩ | ⟨s, h1, rfl⟩
  · exact v1_laid h1 h2
  · exact single_laid h1

variable {C S F K A : Type} [Field F] [LinearOrder F] [AddCommGroup A] [Module F A] [Field K]
  [LinearOrder K]
  {ι : C → Column} {σ : S → ℕ} {gates : Gates C S F} {lookups : List (LookupArg C S F)}
  {tables : ℕ → Prop} {constants : List ℕ}

/-! ### An accepted proof -/

/-- **C81**, soundness: sets of bad challenges are fixed before each challenge, of bounded size;
whenever the verifier accepts a proof and no challenge of the transcript is bad, a relation between
generators of the parameters has been found, or for every instance the columns committed to, read
through the start rows of the regions, meet every gate, equality, constant, fixed value and lookup
the regions of the circuit ask for, and the cells constrained to the instance have its values. -/
theorem accepted_circuit [DecidableEq A] {threads threads' k T : ℕ} {c : Consts F} (hc : c.Valid)
    (ht : threads ≠ 0) (ht' : threads' ≠ 0) {hasher : Bytes → A} {pr : Params A}
    (hpr : Commitment.Params.new threads' c hasher k = some pr) {e : Enc F K A} (he : e.Valid)
    {cs : Cs F} {simple : ℕ → Bool} (hconf : Configured cs (2 ^ k) simple) {delta repr : F}
    (hdelta : IsPrimitiveRoot delta T) (hT : Nat.Coprime (2 ^ k) T) (hm : cs.permutation.length ≤ T)
    {rops : List (Op F)} {keys : Keys F A}
    (hkeys : keygen threads c pr delta repr cs rops = some keys) (instances : List (List (List F)))
    {ops : List (Region.Op C S F)} {regions : List (List (ROp F))} {starts : List ℕ}
    {calls : List (Owner × COp F)} (hplan : Planned constants regions starts calls)
    (hcirc : ∀ t : Cols F, t.fixed = fixedCells cs (2 ^ k) rops →
      Layout.Circuit ι σ gates lookups ops regions starts calls tables rops cs (2 ^ k) t) :
    ∃ bad : List (List (Comb F)) → List (Item F A (Comb F)) → Finset F,
      (∀ polys l, (bad polys l).card ≤
        proofBound keys.domain keys.cs instances.length (challenges l)) ∧
      ∀ rep, Algebraic pr rep → ∀ (hash : Hash F) (st st' : RState F),
        verifySingle (withHash e hash) pr keys.domain keys.cs delta keys.vk instances st
          = .ok ((), st') →
        ∃ inst advice st₁ gd m l,
          verifierColumns (withHash e hash) pr keys.cs keys.vk.repr instances st
            = .ok ((inst, advice), st₁) ∧
          verifyGuard (withHash e hash) pr keys.domain keys.cs delta keys.vk instances MSM.new st
            = .ok (gd, st') ∧
          gd.useChallenges pr = some m ∧
          Logged (withHash e hash) rep st₁.absorbed l st'.absorbed ∧
          advice.length = instances.length ∧ (∀ a ∈ advice, a.length = cs.numAdvice) ∧
          (Avoids (bad (advice.map fun a => a.map rep)) l →
            Relation pr (relOf e.toCoords rep m) ∨
            (∃ (v : List F) (C : A) (P : F[X]),
              v ∈ publicColumns keys.domain keys.cs delta keys.pk.fixedValues
                (rops.filterMap (copyCall (2 ^ k - (cs.blindingFactors + 1)))) instances ∧
              pr.commitLagrange v 1 = some C ∧ P.degree < (keys.domain.n : WithBot ℕ) ∧
              column keys.domain (P, 0, 1) = v ∧ Relation pr (rep C - (P, 0, 1))) ∨
            ∀ q ∈ advice.zip instances, ∃ G : Grid C F,
              G = gridOf ι starts (2 ^ k) ⟨fixedCells cs (2 ^ k) rops,
               fun c r => (((q.1.map rep).map (column keys.domain)).getD c []).getD r 0,
               fun c r => (q.2.getD c []).getD r 0⟩ ∧
              Region.Sat gates G ops ∧ (∀ l ∈ lookups, ∀ reg, SatLookup l G ops reg) ∧
              ∀ (i : ℕ) r, regions[i]? = some r → ∀ cell column row,
                ROp.inst cell column row ∈ r → ∀ c, IsCell ι c cell →
                  G.at c = (q.2.getD column []).getD row 0) := by
  obtain ⟨bad, h1, h2⟩ := accepted_proof_meets hc ht ht' hpr he hconf hdelta hT hm hkeys instances
  refine ⟨bad, h1, fun rep hrep hash st st' hv => ?_⟩
  obtain ⟨inst, advice, st₁, gd, m, l, g1, g2, g3, g4, g5, g6, g7⟩ := h2 rep hrep hash st st' hv
  refine ⟨inst, advice, st₁, gd, m, l, g1, g2, g3, g4, g5, g6, fun hav => ?_⟩
  rcases g7 hav with g8 | g8 | g8
  · exact .inl g8
  · exact .inr (.inl g8)
  · refine .inr (.inr fun q hq => ⟨_, rfl, ?_⟩)
    exact hplan.laid.sound (hcirc _ rfl) (g8 q hq)

/-! ### An honest proof -/

/-- Columns that meet the circuit as configured fulfil the constraint system of the keys. -/
theorem sat_of_meets {k : ℕ} {cs cs' : Cs F} {simple : ℕ → Bool}
    (hconf : Configured cs (2 ^ k) simple) {kops : List (Op F)} {fv : List (List F)}
    {perm : Copy.Assembly cs.permutation (2 ^ k)} (has : Assembled cs (2 ^ k) kops cs' fv perm)
    {d : Domain F} (hd : d.n = 2 ^ k) {inst : List (List F)} {ops : List (Op F)}
    (hsame : SameCircuit kops ops) (hil : inst.length = cs.numInstance)
    (hiv : ∀ v ∈ inst, v.length ≤ 2 ^ k - (cs.blindingFactors + 1))
    (hsat : ∀ blind, Meets cs (2 ^ k) ops
      (assignment (2 ^ k - (cs.blindingFactors + 1)) inst ops blind)) {a : List (List F)}
    (ha : adviceOf cs' (2 ^ k) inst ops = some a) (rng : ℕ → ℕ → ℕ → F) (i : ℕ) :
    Plonk.Sat d cs' fv (kops.filterMap (copyCall (2 ^ k - (cs.blindingFactors + 1))))
      ⟨blindCircuit (2 ^ k) cs'.blindingFactors rng i a, inst.map (pad (2 ^ k))⟩ := by
  rw [adviceOf_eq, has.numAdvice, has.blinding] at ha
  cases ha
  obtain ⟨hb1, hb2⟩ := blindCircuit_len (rng := rng) (i := i) (bf := cs.blindingFactors)
    (m := cs.numAdvice) (n := 2 ^ k) (a := grid cs.numAdvice (2 ^ k) fun c r =>
      (lastWrite (adviceWrite (2 ^ k - (cs.blindingFactors + 1)) c r) ops).elim 0 Assigned.evaluate)
    (by simp [grid]) (by
      intro v hv
      simp only [grid, List.mem_map] at hv
      obtain ⟨_, _, rfl⟩ := hv
      simp)
  rw [has.blinding]
  have hful := (has.same ⟨blindCircuit (2 ^ k) cs.blindingFactors rng i
      (grid cs.numAdvice (2 ^ k) fun c r =>
        (lastWrite (adviceWrite (2 ^ k - (cs.blindingFactors + 1)) c r) ops).elim 0
          Assigned.evaluate), inst.map (pad (2 ^ k))⟩).2 (by
    refine meets_same (ops := ops) hsame.symm ?_
    refine meets_agree hconf (t := assignment (2 ^ k - (cs.blindingFactors + 1)) inst ops
      fun c r => rng i c (r - (2 ^ k - (cs.blindingFactors + 1)))) ⟨?_, ?_, ?_⟩ (hsat _)
    · intro c hc r hr
      rw [fixedCells_same hsame]
      rfl
    · intro c hc r hr
      dsimp only [Plonk.cols]
      rw [blindCircuit_cell _ _ _ _ _ _ _ _ hc hr]
      rfl
    · intro c hc r hr
      dsimp only [Plonk.cols]
      rw [pads_getD]
      rfl)
  obtain ⟨g1, g2, g3⟩ := hful
  refine ⟨by rw [has.numAdvice]; exact hb1, by rw [has.numInstance]; simpa using hil,
    by rw [hd]; exact hb2, ?_, by rw [hd]; exact g1, by rw [hd]; exact g2, by rw [hd]; exact g3⟩
  intro v hv
  obtain ⟨u, hu, rfl⟩ := List.mem_map.1 hv
  rw [hd]
  have := hiv u hu
  simp only [Verif.Protocol.pad, List.length_append, List.length_replicate]
  omega

/-- The calls of the prover on the backend with the witness of the planner's calls. -/
structure Assigns (calls : List (Owner × COp F)) (rops : List (Op F)) : Prop where
  advice : ∀ w c r v, (w, .advice c r v) ∈ calls →
    ∃ a, a.evaluate = v ∧ Op.advice c r (some a) ∈ rops
  advice_of : ∀ c r x, Op.advice c r x ∈ rops →
    ∃ w a, x = some a ∧ (w, .advice c r a.evaluate) ∈ calls

/-- A prover that executes the circuit for an instance: it makes calls of gadgets whose constraints
every assignment with its witness meets, a planner lays them out, the calls on the backend have the
witness, and the cells constrained to the instance have its values. -/
structure Execution (ι : C → Column) (σ : S → ℕ) (gates : Gates C S F)
    (lookups : List (LookupArg C S F)) (tables : ℕ → Prop) (constants : List ℕ) (cs : Cs F) (n : ℕ)
    (inst : List (List F)) (rops : List (Op F)) (ops : List (Region.Op C S F))
    (regions : List (List (ROp F))) (starts : List ℕ) (calls : List (Owner × COp F)) : Prop where
  plan : Planned constants regions starts calls
  circuit : ∀ t : Cols F, t.fixed = fixedCells cs n rops →
    Layout.Circuit ι σ gates lookups ops regions starts calls tables rops cs n t
  assigns : Assigns calls rops
  consistent : ∃ G : Grid C F, Honest G ops
  complete : ∀ G, Honest G ops →
    Region.Sat gates G ops ∧ ∀ l ∈ lookups, ∀ reg, SatLookup l G ops reg
  inst : ∀ blind, ∀ (i : ℕ) r, regions[i]? = some r → ∀ cell column row,
    ROp.inst cell column row ∈ r → ∃ c, IsCell ι c cell ∧
      (gridOf ι starts n (assignment (n - (cs.blindingFactors + 1)) inst rops blind)).at c =
        (inst.getD column []).getD row 0

/-- The columns have the witness of the calls. -/
theorem witness_of (hι : Function.Injective ι) {cs : Cs F} {n : ℕ} {inst : List (List F)}
    {rops : List (Op F)} {ops : List (Region.Op C S F)} {regions : List (List (ROp F))}
    {starts : List ℕ} {calls : List (Owner × COp F)} (hplan : Planned constants regions starts calls)
    (hcirc : ∀ t : Cols F, t.fixed = fixedCells cs n rops →
      Layout.Circuit ι σ gates lookups ops regions starts calls tables rops cs n t)
    (hassigns : Assigns calls rops) (hcons : ∃ G : Grid C F, Honest G ops) (blind : ℕ → ℕ → F) :
    Layout.Witness calls (assignment (n - (cs.blindingFactors + 1)) inst rops blind) := by
  intro w c r v hv
  have hc := hcirc (assignment (n - (cs.blindingFactors + 1)) inst rops blind) rfl
  obtain ⟨G, hG⟩ := hcons
  obtain ⟨f, hf, -⟩ := exists_witness hι hplan.laid hc.describes hG 0
  have hr := hc.fits.advice _ _ _ _ hv
  show (if r < n - (cs.blindingFactors + 1) then
    (lastWrite (adviceWrite (n - (cs.blindingFactors + 1)) c r) rops).elim 0 Assigned.evaluate
    else blind c r) = v
  rw [if_pos hr]
  obtain ⟨a, ha, hm⟩ := hassigns.advice _ _ _ _ hv
  unfold lastWrite
  rcases hfind : rops.reverse.findSome? (adviceWrite (n - (cs.blindingFactors + 1)) c r) with _ | b
  · have := List.findSome?_eq_none_iff.1 hfind _ (List.mem_reverse.2 hm)
    simp [adviceWrite, hr] at this
  · obtain ⟨o, ho, hb⟩ := List.exists_of_findSome?_eq_some hfind
    rw [List.mem_reverse] at ho
    cases o with
    | advice c' r' x =>
      simp only [adviceWrite] at hb
      split_ifs at hb with he
      obtain ⟨rfl, rfl, -⟩ := he
      obtain ⟨w', a', rfl, hm'⟩ := hassigns.advice_of _ _ _ ho
      cases hb
      exact (hf _ _ _ _ hm').symm.trans (hf _ _ _ _ hv)
    | _ => simp [adviceWrite] at hb

/-- The columns of an execution have its witness. -/
theorem Execution.witness (hι : Function.Injective ι) {cs : Cs F} {n : ℕ} {inst : List (List F)}
    {rops : List (Op F)} {ops : List (Region.Op C S F)} {regions : List (List (ROp F))}
    {starts : List ℕ} {calls : List (Owner × COp F)}
    (h : Execution ι σ gates lookups tables constants cs n inst rops ops regions starts calls)
    (blind : ℕ → ℕ → F) :
    Layout.Witness calls (assignment (n - (cs.blindingFactors + 1)) inst rops blind) :=
  witness_of hι h.plan h.circuit h.assigns h.consistent blind

/-- An execution, from the values of the witness in the cells constrained to the instance. -/
theorem Execution.of_values (hι : Function.Injective ι) {cs : Cs F} {n : ℕ} {inst : List (List F)}
    {rops : List (Op F)} {ops : List (Region.Op C S F)} {regions : List (List (ROp F))}
    {starts : List ℕ} {calls : List (Owner × COp F)} (hplan : Planned constants regions starts calls)
    (hcirc : ∀ t : Cols F, t.fixed = fixedCells cs n rops →
      Layout.Circuit ι σ gates lookups ops regions starts calls tables rops cs n t)
    (hassigns : Assigns calls rops) (hcons : ∃ G : Grid C F, Honest G ops)
    (hcomplete : ∀ G, Honest G ops →
      Region.Sat gates G ops ∧ ∀ l ∈ lookups, ∀ reg, SatLookup l G ops reg)
    (hv : ∀ G : Grid C F, Honest G ops → ∀ (i : ℕ) r, regions[i]? = some r → ∀ cell column row,
      ROp.inst cell column row ∈ r → ∃ c, IsCell ι c cell ∧
        G.at c = (inst.getD column []).getD row 0) :
    Execution ι σ gates lookups tables constants cs n inst rops ops regions starts calls :=
  ⟨hplan, hcirc, hassigns, hcons, hcomplete, fun blind => hv _ (hplan.laid.honest (hcirc _ rfl)
    (witness_of hι hplan hcirc hassigns hcons blind))⟩

/-- The columns of an execution meet the circuit. -/
theorem Execution.meets (hι : Function.Injective ι) {cs : Cs F} {n : ℕ} {inst : List (List F)}
    {rops : List (Op F)} {ops : List (Region.Op C S F)} {regions : List (List (ROp F))}
    {starts : List ℕ} {calls : List (Owner × COp F)}
    (h : Execution ι σ gates lookups tables constants cs n inst rops ops regions starts calls)
    (blind : ℕ → ℕ → F) :
    Meets cs n rops (assignment (n - (cs.blindingFactors + 1)) inst rops blind) := by
  have hc := h.circuit (assignment (n - (cs.blindingFactors + 1)) inst rops blind) rfl
  have hh := h.plan.laid.honest hc (h.witness hι blind)
  exact h.plan.laid.complete hc (h.complete _ hh).1 (h.complete _ hh).2 (h.inst blind)

/-- **C81**, completeness: if each of several instances has an execution whose gadgets are complete,
an honest proof of all of them, if the prover finishes one and no challenge is exceptional, is
accepted, and the verifier reads exactly the proof. -/
theorem honest_circuit [DecidableEq A] (hι : Function.Injective ι) {threads threads' k : ℕ}
    {c : Consts F} (hc : c.Valid)
    (ht : threads ≠ 0) (ht' : threads' ≠ 0) {hasher : Bytes → A} {pr : Params A}
    (hpr : Commitment.Params.new threads' c hasher k = some pr) {e : Enc F K A} (he : e.Valid)
    {cs : Cs F} {simple : ℕ → Bool} (hconf : Configured cs (2 ^ k) simple)
    (hcols : cs.lookups ≠ [] → cs.numFixed + cs.numAdvice + cs.numInstance ≠ 0)
    {delta repr : F} {kops : List (Op F)} {keys : Keys F A}
    (hkeys : keygen threads c pr delta repr cs kops = some keys)
    (runs : List (List (List F) × List (Op F))) (circuits : List (List (List F)))
    (hruns : List.Forall₂ (fun q a => SameCircuit kops q.2 ∧
      (q.1.length = cs.numInstance ∧ ∀ v ∈ q.1, v.length ≤ 2 ^ k - (cs.blindingFactors + 1)) ∧
      (∃ ops regions starts calls, Execution ι σ gates lookups tables constants cs (2 ^ k) q.1 q.2
        ops regions starts calls) ∧
      adviceOf keys.cs (2 ^ k) q.1 q.2 = some a) runs circuits)
    (rng : Rng F) (st' : WState F)
    (hprove : createProof threads e pr keys.domain keys.cs delta repr rng keys.pk circuits
      (runs.map Prod.fst) W.init = .ok ((), st'))
    (hlucky : Lucky keys.domain keys.cs delta keys.pk.fixedValues
      (witness keys.domain.n keys.cs.blindingFactors rng circuits (runs.map Prod.fst))
      st'.trace.reverse) (rest : Bytes) :
    verifySingle e pr keys.domain keys.cs delta keys.vk (runs.map Prod.fst)
      (R.init (st'.out ++ rest)) = .ok ((), ⟨st'.absorbed, rest, st'.trace⟩) := by
  obtain ⟨fv, perm, hd, hdn, hset, has, hpk, hvk⟩ := keygen_spec hc ht ht' hpr hconf hkeys
  have hfvs := fixedValues_of hpk
  rw [hfvs] at hlucky
  have hmin : cs.blindingFactors + 1 + 1 + 1 ≤ 2 ^ k := has.rows
  refine honest_proof_verifies hc ht ht' hd hpr he keys.cs has.degree (by rw [hdn]; exact has.ready)
    (by rw [hdn, has.blinding]; omega) ?_ delta repr fv has.fixedLen (by rw [hdn]; exact has.fixedRows)
    _ ?_ keys.pk hpk keys.vk hvk rng circuits _ ?_ ?_ st' hprove hlucky rest
  · intro hl
    have := hcols fun h0 => hl (has.lookups.2 h0)
    have := has.numFixed
    rw [has.numAdvice, has.numInstance]
    omega
  · rw [hdn, has.blinding]
    exact calls_usable _ _
  · intro a ha
    obtain ⟨i, hi, rfl⟩ := List.mem_iff_getElem.1 ha
    have hx := (List.forall₂_iff_get.1 hruns).2 i (by rw [hruns.length_eq]; exact hi) hi
    simp only [List.get_eq_getElem] at hx
    have h3 := hx.2.2.2
    rw [adviceOf_eq] at h3
    rw [← Option.some.inj h3, hdn]
    refine ⟨by simp [grid], fun v hv => ?_⟩
    simp only [grid, List.mem_map] at hv
    obtain ⟨_, _, rfl⟩ := hv
    simp
  · intro w hw
    unfold Protocol.witness at hw
    obtain ⟨q, hq, rfl⟩ := List.mem_map.1 hw
    obtain ⟨i, hi, rfl⟩ := List.mem_iff_getElem.1 hq
    have hl := hruns.length_eq
    have hi1 : i < circuits.length := by
      simp only [List.length_zip, List.length_map, List.length_zipIdx] at hi; omega
    have hi2 : i < runs.length := by omega
    have hx := (List.forall₂_iff_get.1 hruns).2 i hi2 hi1
    simp only [List.get_eq_getElem] at hx
    obtain ⟨x1, ⟨x2, x3⟩, ⟨ops, regions, starts, calls, x4⟩, x5⟩ := hx
    simp only [List.getElem_zip, List.getElem_map, List.getElem_zipIdx, hdn, zero_add]
    exact sat_of_meets hconf has hdn x1 x2 x3 (x4.meets hι) x5 rng.adviceRows i

end Verif.EndToEnd
