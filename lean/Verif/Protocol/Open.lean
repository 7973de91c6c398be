import Verif.Protocol.Queries
import Verif.Multiopen.Props
import Mathlib.Tactic.Positivity

/-!
# Evaluations and openings
-/

namespace Verif.Protocol

open Verif.Cs (Cs Column Lookup)
open Verif.Domain (Domain)
open Verif.PolyArith (evalPolynomial)
open Verif.Plonk (Pk Circuit Leaves Permuted Product Challenges CircuitProof CircuitEvals mapS
  register queryEvals circuitEvals)
open Verif.Msm Verif.Transcript Verif.Multicore
open Verif.Multiopen (Query Commitment commitOf Denotes)
open Verif.Ipa (ParamsOk GuardOk)

variable {F K A : Type} [Field F] [AddCommGroup A] [Module F A] [Field K]
variable {Good : List F → Prop} {tr : List F} {threads : ℕ} {pr : Params A} {d : Domain F}

/-! ### The commitment to the quotient -/

theorem recombine_commit (ht : threads ≠ 0) (hn : d.n ≠ 0) (xn : F) (l : List (List F × F))
    (hl : ∀ q ∈ l, q.1.length = d.n) :
    ∃ out, Verif.Vanishing.recombine threads d xn (l.map Prod.fst) = some out ∧
      out.length = d.n ∧
      commitOf pr (out, Verif.Vanishing.recombineBlind xn (l.map Prod.snd))
        = Verif.Vanishing.hCommitment xn (l.map (commitOf pr)) := by
  have hb : ∀ bs : List F, Verif.Vanishing.recombineBlind xn bs
      = bs.foldr (fun b acc => acc * xn + b) 0 := by
    intro bs
    unfold Verif.Vanishing.recombineBlind
    rw [List.foldl_reverse]
  rw [hb, Verif.Vanishing.foldl_reverse_eq]
  induction l with
  | nil =>
    refine ⟨List.replicate d.n 0, rfl, by simp, ?_⟩
    simp [commitOf, dot_replicate_zero]
  | cons q l ih =>
    obtain ⟨out, h1, h2, h3⟩ := ih fun q hq => hl q (by simp [hq])
    have hq := hl q (by simp)
    have hne : out ≠ [] := by rintro rfl; exact hn (by simpa using h2.symm)
    have hne' : out.map (· * xn) ≠ [] := by simpa using hne
    refine ⟨List.zipWith (· + ·) (out.map (· * xn)) q.1, ?_, by simp [h2, hq], ?_⟩
    · rw [List.map_cons]
      unfold Verif.Vanishing.recombine
      rw [h1, Option.bind_some, Verif.Vanishing.polyMul_eq threads ht out hne, Option.bind_some,
        Verif.Vanishing.polyAdd_eq threads ht _ _ hne' (by simp [h2, hq])]
    · simp only [List.map_cons, List.foldr_cons]
      rw [← h3]
      simp only [commitOf]
      rw [dot_zipWith_add _ _ _ (by simp [h2, hq]), dot_map_mul, add_smul, smul_add, mul_comm,
        mul_smul]
      abel

section
variable [LinearOrder K]

theorem hCommitment_holds {e : Enc F K A} (he : e.Valid) (xn : F) (cs : List A) :
    ∃ m, hCommitment e xn cs = some m ∧
      Holds e.toCoords pr m (Verif.Vanishing.hCommitment xn cs) := by
  unfold hCommitment
  rw [Verif.Vanishing.foldl_reverse_eq, List.foldlM_reverse]
  induction cs with
  | nil => exact ⟨_, rfl, holds_new _ _⟩
  | cons c cs ih =>
    obtain ⟨m, h1, h2⟩ := ih
    rw [List.foldrM_cons, h1]
    obtain ⟨m', h3, h4⟩ := holds_append he.coords_valid (holds_scale h2 xn) 1 c
    refine ⟨m', h3, ?_⟩
    rw [one_smul] at h4
    exact h4

end

/-! ### Evaluations -/

theorem Sim.mapErrW {α β : Type} {w : W F α} {r : R F β} {Q : α → β → List F → Prop} {err : Err}
    (h : Sim Good tr w r Q) : Sim Good tr (mapErr err w) r Q := by
  have hok : ∀ s a s', mapErr err w s = .ok (a, s') → w s = .ok (a, s') := by
    intro s a s' hw
    unfold Transcript.mapErr at hw
    split at hw
    · cases hw; assumption
    · cases hw
    · cases hw
  exact ⟨fun abs out a st' hw => h.grows _ _ _ _ (hok _ _ _ hw),
    fun abs out a st' hw hg => h.run _ _ _ _ (hok _ _ _ hw) hg⟩

theorem evalQueries_grows (e : Enc F K A) (x : F) (queries : List (ℕ × ℤ)) (polys : List (List F)) :
    Grows (evalQueries e d x queries polys) := by
  unfold evalQueries; grows

theorem evalQueries_sim (hG : Closed Good) {e : Enc F K A} (he : e.Valid) (x : F)
    (queries : List (ℕ × ℤ)) (polys : List (List F)) :
    Sim Good tr (evalQueries e d x queries polys) (R.readNScalars e queries.length)
      fun _ v t => t = tr ∧ queryEvals d x polys queries = some v := by
  unfold evalQueries
  refine Sim.panicsW fun ev hev => ?_
  have hl : ev.length = queries.length := (List.Forall₂.length_eq (Verif.Plonk.mapM_inv hev)).symm
  refine (Sim.thenW (readNScalars_sim hG he ev _ hl) _).mono ?_
  rintro _ _ _ - - ⟨-, _, rfl, rfl⟩
  exact ⟨rfl, hev⟩

theorem evalPermutation_grows (e : Enc F K A) (bf : ℕ) (x : F) (zs : List (List F)) :
    Grows (evalPermutation e d bf x zs) := by
  induction zs with
  | nil => exact Grows.pure _
  | cons z zs ih => unfold evalPermutation; grows

/-- Side conditions `Grows` of the evaluations. -/
macro "grows₃" : tactic => `(tactic| repeat' (first
  | exact evalPermutation_grows _ _ _ _
  | exact evalQueries_grows _ _ _ _
  | exact Grows.pure _
  | exact Grows.panics _
  | exact Grows.writeScalar _ _
  | exact Multiopen.createProof_grows _ _ _ _ _ _ _
  | apply Grows.mapErr
  | apply Grows.mapM
  | apply Grows.ite
  | apply Grows.bind
  | intro _))

theorem evalPermutation_sim (hG : Closed Good) {e : Enc F K A} (he : e.Valid) (bf : ℕ) (x : F)
    (zs : List (List F)) (cs : List A) (hlen : cs.length = zs.length) :
    Sim Good tr (evalPermutation e d bf x zs) (readPermutation e cs)
      fun _ v t => t = tr ∧ v = zs.mapIdx fun i z =>
      ⟨evalPolynomial z x, evalPolynomial z (d.rotateOmega x 1),
        if i + 1 < zs.length then
          some (evalPolynomial z (d.rotateOmega x (-((bf : ℤ) + 1)))) else none⟩ := by
  induction zs generalizing cs with
  | nil =>
    cases cs with
    | nil => exact Sim.pure _ _ fun _ => ⟨rfl, rfl⟩
    | cons => simp at hlen
  | cons z zs ih =>
    cases cs with
    | nil => simp at hlen
    | cons c cs =>
      have hl : cs.length = zs.length := by simpa using hlen
      unfold evalPermutation readPermutation
      refine Sim.bind' hG (Sim.writeScalar he _) (fun _ => by grows₃) ?_
      rintro _ _ tr - ⟨rfl, rfl⟩
      refine Sim.bind' hG (Sim.writeScalar he _) (fun _ => by grows₃) ?_
      rintro _ _ tr - ⟨rfl, rfl⟩
      have key : ∀ (c : Option F), (if zs.length > 0 then
          some (evalPolynomial z (d.rotateOmega x (-((bf : ℤ) + 1)))) else none) = c →
          Sim Good tr (evalPermutation e d bf x zs) (do
            let t ← readPermutation e cs
            pure (⟨evalPolynomial z x, evalPolynomial z (d.rotateOmega x 1), c⟩ :: t))
          fun _ v t => t = tr ∧ v = (z :: zs).mapIdx fun i z' =>
          ⟨evalPolynomial z' x, evalPolynomial z' (d.rotateOmega x 1),
            if i + 1 < (z :: zs).length then
              some (evalPolynomial z' (d.rotateOmega x (-((bf : ℤ) + 1)))) else none⟩ := by
        intro c hc
        have h := Sim.bind' hG (ih cs hl) (f := fun u => (pure u : W F Unit))
          (g := fun t => pure (⟨evalPolynomial z x, evalPolynomial z (d.rotateOmega x 1), c⟩ :: t))
          (fun _ => Grows.pure _) (Q' := fun _ v t => t = tr ∧ v = (z :: zs).mapIdx fun i z' =>
          ⟨evalPolynomial z' x, evalPolynomial z' (d.rotateOmega x 1),
            if i + 1 < (z :: zs).length then
              some (evalPolynomial z' (d.rotateOmega x (-((bf : ℤ) + 1)))) else none⟩) (by
            rintro _ _ _ - ⟨rfl, rfl⟩
            refine Sim.pure _ _ fun _ => ⟨rfl, ?_⟩
            rw [List.mapIdx_cons]
            subst hc
            simp only [List.length_cons, Nat.zero_add, Nat.lt_add_left_iff_pos,
              Nat.add_lt_add_iff_right, gt_iff_lt])
        rw [bind_pure] at h
        exact h
      by_cases hz : zs.length > 0
      · rw [if_pos hz, if_pos (by omega), bind_assoc]
        refine Sim.bind' hG (Sim.writeScalar he _) (fun _ => evalPermutation_grows _ _ _ _) ?_
        rintro _ _ _ - ⟨rfl, rfl⟩
        rw [pure_bind]
        exact key _ (if_pos hz)
      · rw [if_neg hz, if_neg (by omega), pure_bind, pure_bind]
        exact key _ (if_neg hz)

theorem evalLookup_sim (hG : Closed Good) {e : Enc F K A} (he : e.Valid) (x : F)
    (q : List F × List F × List F) :
    Sim Good tr (evalLookup e d x q) (readLookup e) fun _ v t => t = tr ∧
      v = ⟨evalPolynomial q.1 x, evalPolynomial q.1 (d.rotateOmega x 1), evalPolynomial q.2.1 x,
        evalPolynomial q.2.1 (d.rotateOmega x (-1)), evalPolynomial q.2.2 x⟩ := by
  unfold evalLookup readLookup
  refine Sim.bind' hG (Sim.writeScalar he _) (fun _ => by grows) ?_
  rintro _ _ _ - ⟨rfl, rfl⟩
  refine Sim.bind' hG (Sim.writeScalar he _) (fun _ => by grows) ?_
  rintro _ _ _ - ⟨rfl, rfl⟩
  refine Sim.bind' hG (Sim.writeScalar he _) (fun _ => by grows) ?_
  rintro _ _ _ - ⟨rfl, rfl⟩
  refine Sim.bind' hG (Sim.writeScalar he _) (fun _ => by grows) ?_
  rintro _ _ _ - ⟨rfl, rfl⟩
  rw [← bind_pure (W.writeScalar e _)]
  refine Sim.bind' hG (Sim.writeScalar he _) (fun _ => by grows) ?_
  rintro _ _ _ - ⟨rfl, rfl⟩
  exact Sim.pure _ _ fun _ => ⟨rfl, rfl⟩

/-! ### Openings -/

theorem mapM_getD {α β : Type*} {f : α → Option β} {l : List α} {r : List β} (dflt : β)
    (h : l.mapM f = some r) :
    r = l.map (fun a => (f a).getD dflt) ∧ ∀ a ∈ l, f a = some ((f a).getD dflt) := by
  induction l generalizing r with
  | nil => cases h; exact ⟨rfl, by simp⟩
  | cons a l ih =>
    rw [List.mapM_cons] at h
    obtain ⟨b, hb, h⟩ := Option.bind_eq_some_iff.1 h
    obtain ⟨bs, hbs, h⟩ := Option.bind_eq_some_iff.1 h
    cases h
    obtain ⟨h1, h2⟩ := ih hbs
    refine ⟨by rw [List.map_cons, ← h1, hb]; rfl, ?_⟩
    intro a' ha'
    rcases List.mem_cons.1 ha' with rfl | ha'
    · rw [hb]; rfl
    · exact h2 a' ha'

/-- Everything opened of a circuit is of the size of the domain. -/
structure Opens.Sized (n : ℕ) (o : Opens (List F × F)) : Prop where
  inst : ∀ p ∈ o.inst, p.1.length = n
  advice : ∀ p ∈ o.advice, p.1.length = n
  permutation : ∀ p ∈ o.permutation, p.1.length = n
  lookups : ∀ p ∈ o.lookups, p.1.1.length = n ∧ p.2.1.1.length = n ∧ p.2.2.1.length = n

/-- Opened commitments as the verifier holds them. -/
def verifierOpens (c : Opens A) : Opens (Commitment F K A) where
  inst := c.inst.map .commitment
  advice := c.advice.map .commitment
  permutation := c.permutation.map .commitment
  lookups := c.lookups.map fun q => (.commitment q.1, .commitment q.2.1, .commitment q.2.2)

theorem getD_denotes {cv : Coords K A} {o₁ : Option (Commitment F K A)} {o₂ : Option (List F × F)}
    (h : o₁ = o₂.map fun p => .commitment (commitOf pr p)) :
    Denotes cv pr (o₁.getD (.commitment 0)) (commitOf pr (o₂.getD ([], 0))) := by
  subst h
  cases o₂ with
  | none => simp [Denotes, commitOf, dot_nil]
  | some p => rfl

theorem deref_denotes {cv : Coords K A} (os : List (Opens (List F × F)))
    (fixed perm : List (List F × F)) (h random : List F × F) {hm : MSM F K}
    (hh : Holds cv pr hm (commitOf pr h)) (p : Ptr) :
    Denotes cv pr (deref (.commitment 0) ((os.map (Opens.map (commitOf pr))).map verifierOpens)
      ((fixed.map (commitOf pr)).map .commitment) ((perm.map (commitOf pr)).map .commitment)
      (.msm hm) (.commitment (commitOf pr random)) p)
      (commitOf pr (deref ([], 0) os fixed perm h random p)) := by
  cases p with
  | inst i c =>
    refine getD_denotes ?_
    rw [List.map_map, List.getElem?_map]
    cases os[i]? with
    | none => rfl
    | some o =>
      simp only [Option.map_some, Option.bind_some, Function.comp_apply, verifierOpens, Opens.map,
        List.getElem?_map, Option.map_map]
      rfl
  | advice i c =>
    refine getD_denotes ?_
    rw [List.map_map, List.getElem?_map]
    cases os[i]? with
    | none => rfl
    | some o =>
      simp only [Option.map_some, Option.bind_some, Function.comp_apply, verifierOpens, Opens.map,
        List.getElem?_map, Option.map_map]
      rfl
  | perm i c =>
    refine getD_denotes ?_
    rw [List.map_map, List.getElem?_map]
    cases os[i]? with
    | none => rfl
    | some o =>
      simp only [Option.map_some, Option.bind_some, Function.comp_apply, verifierOpens, Opens.map,
        List.getElem?_map, Option.map_map]
      rfl
  | lookupZ i c =>
    refine getD_denotes ?_
    rw [List.map_map, List.getElem?_map]
    cases os[i]? with
    | none => rfl
    | some o =>
      simp only [Option.map_some, Option.bind_some, Function.comp_apply, verifierOpens, Opens.map,
        List.getElem?_map, Option.map_map]
      rfl
  | lookupA i c =>
    refine getD_denotes ?_
    rw [List.map_map, List.getElem?_map]
    cases os[i]? with
    | none => rfl
    | some o =>
      simp only [Option.map_some, Option.bind_some, Function.comp_apply, verifierOpens, Opens.map,
        List.getElem?_map, Option.map_map]
      rfl
  | lookupS i c =>
    refine getD_denotes ?_
    rw [List.map_map, List.getElem?_map]
    cases os[i]? with
    | none => rfl
    | some o =>
      simp only [Option.map_some, Option.bind_some, Function.comp_apply, verifierOpens, Opens.map,
        List.getElem?_map, Option.map_map]
      rfl
  | fixed c =>
    unfold deref; dsimp only
    rw [List.getD_eq_getElem?_getD, List.getD_eq_getElem?_getD]
    refine getD_denotes ?_
    rw [List.map_map, List.getElem?_map]; rfl
  | permCommon c =>
    unfold deref; dsimp only
    rw [List.getD_eq_getElem?_getD, List.getD_eq_getElem?_getD]
    refine getD_denotes ?_
    rw [List.map_map, List.getElem?_map]; rfl
  | h => exact hh
  | random => rfl

theorem queryEvals_mem {x : F} {polys : List (List F)} {queries : List (ℕ × ℤ)} {ev : List F}
    (h : queryEvals d x polys queries = some ev) : ∀ q ∈ queries, q.1 < polys.length := by
  intro q hq
  obtain ⟨i, hi⟩ := List.mem_iff_getElem?.1 hq
  obtain ⟨b, h1, -⟩ := mapM_getElem? h i q hi
  obtain ⟨p, h3, -⟩ := Option.map_eq_some_iff.1 h1
  by_contra hc
  rw [List.getElem?_eq_none (by omega)] at h3
  cases h3

/-- The prover's queries point to polynomials of the right size, at rotations of `x`. -/
theorem proverQueries_ok {cs : Cs F} {x : F} {os : List (Opens (List F × F))}
    (hos : ∀ o ∈ os, o.Sized d.n ∧ ∃ ev, circuitEvals d cs x (proofOf o) = some ev)
    (fixed perm : List (List F × F)) (hf : ∀ p ∈ fixed, p.1.length = d.n)
    (hp : ∀ p ∈ perm, p.1.length = d.n)
    (hfq : ∀ q ∈ cs.fixedQueries, q.1 < fixed.length)
    {h random : List F × F} (hh : h.1.length = d.n) (hr : random.1.length = d.n) :
    ∀ q ∈ proverQueries d cs x os perm.length,
      (deref ([], 0) os fixed perm h random q.commitment).1.length = d.n ∧
      (q.point = x ∨ ∃ r, q.point = d.rotateOmega x r) := by
  intro q hq
  unfold proverQueries at hq
  simp only [List.mem_append, List.mem_flatMap, List.mem_map, List.mem_cons, List.mem_range,
    List.not_mem_nil, or_false] at hq
  rcases hq with ((hq | hq) | hq) | hq
  · obtain ⟨⟨o, i⟩, hoi, hq⟩ := hq
    rw [List.mem_zipIdx_iff_getElem?] at hoi
    dsimp only at hoi hq
    obtain ⟨ho, ev, hev⟩ := hos o (List.mem_of_getElem? hoi)
    obtain ⟨h1, h2, -, -⟩ := circuitEvals_inv hev
    have h1 := queryEvals_mem h1
    have h2 := queryEvals_mem h2
    simp only [proofOf, List.length_map] at h1 h2
    unfold openCircuit openPermutation openLookup at hq
    simp only [List.mem_append, List.mem_flatMap, List.mem_map, List.mem_cons, List.mem_range,
      List.not_mem_nil, or_false] at hq
    rcases hq with ((hq | hq) | hq | hq) | hq
    · obtain ⟨c, hc, rfl⟩ := hq
      refine ⟨?_, Or.inr ⟨_, rfl⟩⟩
      simp only [deref, hoi, Option.bind_some, List.getElem?_eq_getElem (h1 c hc), Option.getD_some]
      exact ho.inst _ (List.getElem_mem _)
    · obtain ⟨c, hc, rfl⟩ := hq
      refine ⟨?_, Or.inr ⟨_, rfl⟩⟩
      simp only [deref, hoi, Option.bind_some, List.getElem?_eq_getElem (h2 c hc), Option.getD_some]
      exact ho.advice _ (List.getElem_mem _)
    · obtain ⟨c, hc, rfl | rfl⟩ := hq
      · refine ⟨?_, Or.inl rfl⟩
        simp only [deref, hoi, Option.bind_some, List.getElem?_eq_getElem hc, Option.getD_some]
        exact ho.permutation _ (List.getElem_mem _)
      · refine ⟨?_, Or.inr ⟨1, rfl⟩⟩
        simp only [deref, hoi, Option.bind_some, List.getElem?_eq_getElem hc, Option.getD_some]
        exact ho.permutation _ (List.getElem_mem _)
    · obtain ⟨c, hc, rfl⟩ := hq
      have hc := List.mem_range.1 (List.mem_reverse.1 (List.mem_of_mem_drop hc))
      refine ⟨?_, Or.inr ⟨-((cs.blindingFactors : ℤ) + 1), rfl⟩⟩
      simp only [deref, hoi, Option.bind_some, List.getElem?_eq_getElem hc, Option.getD_some]
      exact ho.permutation _ (List.getElem_mem _)
    · obtain ⟨c, hc, hq⟩ := hq
      obtain ⟨hl1, hl2, hl3⟩ := ho.lookups _ (List.getElem_mem hc)
      rcases hq with rfl | rfl | rfl | rfl | rfl
      · refine ⟨?_, Or.inl rfl⟩
        simp only [deref, hoi, Option.bind_some, List.getElem?_eq_getElem hc, Option.map_some,
          Option.getD_some, hl1]
      · refine ⟨?_, Or.inl rfl⟩
        simp only [deref, hoi, Option.bind_some, List.getElem?_eq_getElem hc, Option.map_some,
          Option.getD_some, hl2]
      · refine ⟨?_, Or.inl rfl⟩
        simp only [deref, hoi, Option.bind_some, List.getElem?_eq_getElem hc, Option.map_some,
          Option.getD_some, hl3]
      · refine ⟨?_, Or.inr ⟨-1, rfl⟩⟩
        simp only [deref, hoi, Option.bind_some, List.getElem?_eq_getElem hc, Option.map_some,
          Option.getD_some, hl2]
      · refine ⟨?_, Or.inr ⟨1, rfl⟩⟩
        simp only [deref, hoi, Option.bind_some, List.getElem?_eq_getElem hc, Option.map_some,
          Option.getD_some, hl1]
  · obtain ⟨c, hc, rfl⟩ := hq
    refine ⟨?_, Or.inr ⟨_, rfl⟩⟩
    simp only [deref, List.getD_eq_getElem _ _ (hfq c hc)]
    exact hf _ (List.getElem_mem _)
  · obtain ⟨c, hc, rfl⟩ := hq
    refine ⟨?_, Or.inl rfl⟩
    simp only [deref, List.getD_eq_getElem _ _ hc]
    exact hp _ (List.getElem_mem _)
  · rcases hq with rfl | rfl
    · exact ⟨hh, Or.inl rfl⟩
    · exact ⟨hr, Or.inl rfl⟩

theorem rotate_pow (hd : d.Valid) (x : F) (r : ℤ) : (d.rotateOmega x r) ^ d.n = x ^ d.n := by
  rw [Verif.Domain.rotateOmega_eq hd, mul_pow, ← zpow_natCast (d.omega ^ r), ← zpow_mul,
    mul_comm r, zpow_mul, zpow_natCast, hd.n_eq, hd.omega_prim.pow_eq_one, one_zpow, mul_one]

section
variable [LinearOrder F] [LinearOrder K]

set_option maxHeartbeats 1000000 in
theorem open_sim (hG : Closed Good) {e : Enc F K A} (he : e.Valid) (hs : Setup threads pr d)
    (ht : threads ≠ 0) (cs : Cs F) (delta : F) (rng : Rng F) (pk : Pk F) (vk : Vk F A)
    (os : List (Opens (List F × F))) (x : F) (random : List F) (pieces : List (List F))
    (r : Read F A)
    (hvf : vk.fixedCommitments = pk.fixedPolys.map fun p => commitOf pr (p, (1 : F)))
    (hvp : vk.permCommitments = pk.permPolys.map fun p => commitOf pr (p, (1 : F)))
    (hfl : ∀ p ∈ pk.fixedPolys, p.length = d.n) (hpl : ∀ p ∈ pk.permPolys, p.length = d.n)
    (hos : ∀ o ∈ os, o.Sized d.n) (hr : random.length = d.n) (hpc : ∀ p ∈ pieces, p.length = d.n)
    (hrx : r.x = x) (hcomms : r.comms = os.map (Opens.map (commitOf pr)))
    (hrr : r.random = commitOf pr (random, rng.randomBlind))
    (hrh : r.h = pieces.mapIdx fun i p => commitOf pr (p, rng.hBlind i))
    (hchk : ∃ fe es v out, queryEvals d x pk.fixedPolys cs.fixedQueries = some fe ∧
      (os.map proofOf).mapM (circuitEvals d cs x) = some es ∧
      Verif.Plonk.expectedH d cs delta ⟨r.theta, r.beta, r.gamma, r.y⟩ x fe
        (pk.permPolys.map fun p => evalPolynomial p x) es = some v ∧
      Verif.Vanishing.recombine threads d (x ^ d.n) pieces = some out ∧ evalPolynomial out x = v)
    (hx₃ : ∀ x₁ x₂ x₃, Good (x₃ :: x₂ :: x₁ :: tr) → x₃ ^ d.n ≠ x ^ d.n)
    (msm : MSM F K) (hmsm : Holds e.toCoords pr msm 0) :
    Sim Good tr (proverOpen threads e pr d cs rng pk os x random pieces)
      (verifierOpen e pr d cs delta vk r msm) fun _ gd _ => GuardOk e pr gd := by
  obtain ⟨fe, es, v, out, hfe, hes, hv, hout, houtv⟩ := hchk
  rw [Verif.Plonk.mapM_map'] at hes
  obtain ⟨hes, hev⟩ := mapM_getD (⟨[], [], [], []⟩ : CircuitEvals F) hes
  generalize hevd : (fun o : Opens (List F × F) =>
    (circuitEvals d cs x (proofOf o)).getD (⟨[], [], [], []⟩ : CircuitEvals F)) = ev at hes hev
  have hev : ∀ o ∈ os, circuitEvals d cs x (proofOf o) = some (ev o) := by
    rw [← hevd]; exact hev
  have hn : d.n ≠ 0 := by rw [hs.domain.n_eq]; positivity
  -- the quotient
  have hpcs : pieces = (pieces.mapIdx fun i p => (p, rng.hBlind i)).map Prod.fst := by
    refine List.ext_getElem (by simp) fun i h1 h2 => ?_
    simp
  have hbls : (pieces.mapIdx fun i _ => rng.hBlind i)
      = (pieces.mapIdx fun i p => (p, rng.hBlind i)).map Prod.snd := by
    refine List.ext_getElem (by simp) fun i h1 h2 => ?_
    simp
  have hcm : (pieces.mapIdx fun i p => commitOf pr (p, rng.hBlind i))
      = (pieces.mapIdx fun i p => (p, rng.hBlind i)).map (commitOf pr) := by
    refine List.ext_getElem (by simp) fun i h1 h2 => ?_
    simp
  obtain ⟨out', ho1, ho2, ho3⟩ := recombine_commit (pr := pr) ht hn (x ^ d.n)
    (pieces.mapIdx fun i p => (p, rng.hBlind i)) (by
      intro q hq
      obtain ⟨i, hi, rfl⟩ := List.mem_mapIdx.1 hq
      exact hpc _ (List.getElem_mem _))
  rw [← hpcs, hout] at ho1
  cases ho1
  rw [← hbls] at ho3
  obtain ⟨hm, hm1, hm2⟩ := hCommitment_holds (pr := pr) he (x ^ d.n)
    ((pieces.mapIdx fun i p => (p, rng.hBlind i)).map (commitOf pr))
  rw [← ho3] at hm2
  unfold proverOpen verifierOpen
  rw [hcomms, hrx, hrr, hrh, hcm, hvp]
  simp only [mapM_map]
  -- instance columns
  refine Sim.bind' hG (Sim.loop hG os os rfl _ _ (fun _ => ()) (fun o => (ev o).inst)
    (fun _ => evalQueries_grows _ _ _ _) ?_) (fun _ => by unfold evalLookup; grows₃) ?_
  · rintro ⟨o, o'⟩ ho
    refine (evalQueries_sim hG he x _ _).mono ?_
    rintro _ w _ - - ⟨rfl, hw⟩
    have := (circuitEvals_inv (hev o (List.of_mem_zip ho).1)).1
    unfold proofOf at this
    rw [hw] at this
    exact ⟨rfl, rfl, Option.some.inj this⟩
  rintro _ _ _ - ⟨rfl, -, rfl⟩
  -- advice columns
  refine Sim.bind' hG (Sim.loop hG os os rfl _ _ (fun _ => ()) (fun o => (ev o).advice)
    (fun _ => evalQueries_grows _ _ _ _) ?_) (fun _ => by unfold evalLookup; grows₃) ?_
  · rintro ⟨o, o'⟩ ho
    refine (evalQueries_sim hG he x _ _).mono ?_
    rintro _ w _ - - ⟨rfl, hw⟩
    have := (circuitEvals_inv (hev o (List.of_mem_zip ho).1)).2.1
    unfold proofOf at this
    rw [hw] at this
    exact ⟨rfl, rfl, Option.some.inj this⟩
  rintro _ _ _ - ⟨rfl, -, rfl⟩
  -- fixed columns
  refine Sim.bind' hG (evalQueries_sim hG he x _ _) (fun _ => by unfold evalLookup; grows₃) ?_
  rintro _ fe' _ - ⟨rfl, hfe'⟩
  rw [hfe] at hfe'
  cases hfe'
  refine Sim.panicsW fun hp hhp => ?_
  rw [hs.n_eq, hout] at hhp
  cases hhp
  -- the random polynomial
  refine Sim.bind' hG (Sim.writeScalar he _) (fun _ => by unfold evalLookup; grows₃) ?_
  rintro _ _ _ - ⟨rfl, rfl⟩
  -- the permutation
  refine Sim.bind' hG (Sim.loop hG pk.permPolys pk.permPolys rfl _ _ (fun _ => ())
    (fun p => evalPolynomial p x) (fun _ => Grows.writeScalar _ _) ?_)
    (fun _ => by unfold evalLookup; grows₃) ?_
  · rintro ⟨p, p'⟩ _
    exact (Sim.writeScalar he _).mono fun _ _ _ _ _ h => ⟨h.2, rfl, h.1⟩
  rintro _ _ _ - ⟨rfl, -, rfl⟩
  refine Sim.bind' hG (Sim.loop hG os os rfl _ _ (fun _ => ()) (fun o => (ev o).permutation)
    (fun _ => evalPermutation_grows _ _ _ _) ?_) (fun _ => by unfold evalLookup; grows₃) ?_
  · rintro ⟨o, o'⟩ ho
    cases mem_zip_self ho
    refine (evalPermutation_sim hG he _ x _ _ (by simp [Opens.map])).mono ?_
    rintro _ w _ - - ⟨rfl, rfl⟩
    exact ⟨rfl, rfl, (circuitEvals_inv (hev o (List.of_mem_zip ho).1)).2.2.1.symm⟩
  rintro _ _ _ - ⟨rfl, -, rfl⟩
  -- lookups
  refine Sim.bind' hG (Sim.loop hG os os rfl _ _ (fun o => o.lookups.map fun _ => ())
    (fun o => (ev o).lookups) (fun _ => by unfold evalLookup; grows₃) ?_)
    (fun _ => by grows₃) ?_
  · rintro ⟨o, o'⟩ ho
    cases mem_zip_self ho
    refine (Sim.loop hG o.lookups (o.map (commitOf pr)).lookups (by simp [Opens.map]) _ _
      (fun _ => ()) (fun q => ⟨evalPolynomial q.1.1 x, evalPolynomial q.1.1 (d.rotateOmega x 1),
        evalPolynomial q.2.1.1 x, evalPolynomial q.2.1.1 (d.rotateOmega x (-1)),
        evalPolynomial q.2.2.1 x⟩) (fun _ => by unfold evalLookup; grows₃) ?_).mono ?_
    · rintro ⟨q, q'⟩ _
      refine (evalLookup_sim hG he x _).mono ?_
      rintro _ _ _ - - ⟨rfl, rfl⟩
      exact ⟨rfl, rfl, rfl⟩
    · rintro _ _ _ - - ⟨rfl, rfl, rfl⟩
      refine ⟨rfl, rfl, ?_⟩
      rw [(circuitEvals_inv (hev o (List.of_mem_zip ho).1)).2.2.2, proofOf, List.map_map]
      rfl
  rintro _ _ _ - ⟨rfl, -, rfl⟩
  -- the verifier's computations
  rw [check_true _ hs.n_eq, pure_bind]
  have hzip : (((os.map fun o => (ev o).advice).zip (os.map fun o => (ev o).inst)).zip
      ((os.map fun o => (ev o).permutation).zip (os.map fun o => (ev o).lookups))).map
      (fun q => ({ advice := q.1.1, inst := q.1.2, permutation := q.2.1, lookups := q.2.2 } :
        CircuitEvals F)) = os.map ev := by
    simp only [List.zip_map', List.map_map, Function.comp_def]
  rw [hzip]
  refine Sim.panicsR (b := v) (by rw [hes] at hv; exact hv) ?_
  rw [hs.n_eq]
  refine Sim.panicsR hm1 ?_
  subst houtv
  have hq := verifierQueries_eq (A := A) ev hev (commitOf pr) vk pk.fixedPolys pk.permPolys hfe
    (by rw [hvf, List.length_map]) (by rw [hvp, List.length_map])
    (out, Verif.Vanishing.recombineBlind (x ^ d.n) (pieces.mapIdx fun i _ => rng.hBlind i))
    (random, rng.randomBlind)
  refine Sim.panicsR hq ?_
  refine Sim.mapErrW (Sim.mapErr ?_)
  have hqok := proverQueries_ok (cs := cs) (x := x) (os := os)
    (fun o ho => ⟨hos o ho, _, hev o ho⟩)
    (pk.fixedPolys.map fun p => (p, (1 : F))) (pk.permPolys.map fun p => (p, (1 : F)))
    (by simpa using hfl) (by simpa using hpl) (by simpa using queryEvals_mem hfe)
    (h := (out, Verif.Vanishing.recombineBlind (x ^ d.n) (pieces.mapIdx fun i _ => rng.hBlind i)))
    (random := (random, rng.randomBlind)) ho2 hr
  rw [List.length_map] at hqok
  refine Verif.Multiopen.createProof_sim hG threads ht he pr hs.params _ _ rng.qBlind rng.ipa
    (proverQueries d cs x os pk.permPolys.length) _ ?_ ?_ ?_ ?_ ?_ msm hmsm
  · rw [List.map_map]; rfl
  · intro q hq; rw [hs.n_eq]; exact (hqok q hq).1
  · intro q hq
    have := deref_denotes (cv := e.toCoords) os (pk.fixedPolys.map fun p => (p, (1 : F)))
      (pk.permPolys.map fun p => (p, (1 : F))) _ (random, rng.randomBlind) hm2 q.commitment
    have e1 : ∀ l : List (List F), (l.map fun p => (p, (1 : F))).map (commitOf pr)
        = l.map fun p => commitOf pr (p, (1 : F)) := fun l => by rw [List.map_map]; rfl
    rw [e1, e1] at this
    rw [hvf]
    exact this
  · intro q hq
    obtain ⟨q', -, rfl⟩ := List.mem_map.1 hq
    rfl
  · intro x₁ x₂ x₃ hg q hq heq
    refine hx₃ x₁ x₂ x₃ hg ?_
    rw [← heq]
    rcases (hqok q hq).2 with h | ⟨r, h⟩
    · rw [h]
    · rw [h, rotate_pow hs.domain]

end

end Verif.Protocol
