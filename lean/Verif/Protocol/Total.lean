import Verif.Protocol.Props
import Verif.Plonk.Total
import Verif.Multiopen.Total

/-!
# C84: when `create_proof` fails

With keys made for the circuit, columns of the right shape, instances that fit and lookups that
hold, `create_proof` returns a proof or reports a transcript error (a commitment was the identity,
which has no coordinates) or an opening error; it never panics and never reports any other error.
Gates and copies need not hold: the prover does not check them.  No challenge may be zero, since the
rounds of the inner product argument invert theirs; as challenges are the hash of the transcript the
hypothesis is on the hash-to-field function.
-/

namespace Verif.Protocol

open Verif.Cs (Cs Column Lookup)
open Verif.Domain (Domain Consts)
open Verif.PolyArith (evalPolynomial)
open Verif.Plonk (Pk Circuit Leaves Permuted Product Challenges Shaped Ready permsOf mapS queryEvals
  circuitEvals)
open Verif.Msm Verif.Transcript
open Verif.Multiopen (Query Commitment commitOf)
open Verif.Ipa (ParamsOk Io)

variable {F K A : Type} [Field F] [AddCommGroup A] [Module F A] [Field K] [LinearOrder F]
  [LinearOrder K] {threads : ℕ} {pr : Params A} {d : Domain F}

/-- `w` only fails with a transcript error or an opening error, and its results satisfy `Q`. -/
def Ends {α : Type} (w : W F α) (Q : α → Prop) : Prop :=
  ∀ s, match w s with
    | .error err => err = .io ∨ err = .opening
    | .ok (a, _) => Q a

theorem Io.ends {α : Type} {w : W F α} {Q : α → Prop} (h : Io w Q) : Ends w Q := by
  intro s
  have := h s
  rcases hw : w s with err | ⟨a, s'⟩
  · rw [hw] at this; exact Or.inl this
  · rw [hw] at this; exact this

theorem Io.mapErr {α : Type} {w : W F α} {Q : α → Prop} (h : Io w Q) :
    Ends (mapErr .opening w) Q := by
  intro s
  have := h s
  unfold Transcript.mapErr
  rcases hw : w s with err | ⟨a, s'⟩
  · rw [hw] at this; cases this; exact Or.inr rfl
  · rw [hw] at this; exact this

theorem Ends.bind {α β : Type} {w : W F α} {f : α → W F β} {Q : α → Prop} {Q' : β → Prop}
    (h : Io w Q) (hf : ∀ a, Q a → Ends (f a) Q') : Ends (w >>= f) Q' := by
  intro s
  change match (w s >>= fun p => f p.1 p.2) with
    | .error err => err = .io ∨ err = .opening
    | .ok (a, _) => Q' a
  have hs := h s
  rcases hw : w s with err | ⟨a, s'⟩
  · rw [hw] at hs; exact Or.inl hs
  · rw [hw] at hs; exact hf a hs s'

theorem Io.mono {α : Type} {w : W F α} {Q Q' : α → Prop} (h : Io w Q) (hQ : ∀ a, Q a → Q' a) :
    Io w Q' := by
  intro s
  have := h s
  rcases hw : w s with err | ⟨a, s'⟩
  · rw [hw] at this; exact this
  · rw [hw] at this; exact hQ a this

theorem Io.mapM_eq {α β : Type} {f : α → W F β} {g : α → β} (l : List α)
    (h : ∀ a ∈ l, Io (f a) (· = g a)) : Io (l.mapM f) (· = l.map g) := by
  induction l with
  | nil => exact Io.pure _ _ rfl
  | cons a l ih =>
    rw [List.mapM_cons]
    refine (h a (by simp)).bind ?_
    rintro _ rfl
    refine (ih fun b hb => h b (by simp [hb])).bind ?_
    rintro _ rfl
    exact Io.pure _ _ rfl

theorem Io.mapM {α β : Type} {f : α → W F β} (l : List α)
    (h : ∀ a ∈ l, Io (f a) fun _ => True) : Io (l.mapM f) fun _ => True :=
  Verif.Multiopen.Io.mapM _ _ h

theorem Io.then' {α β : Type} {w : W F α} {b : β} (h : Io w fun _ => True) :
    Io (w >>= fun _ => (Pure.pure b : W F β)) (· = b) :=
  h.bind fun _ _ => Io.pure _ _ rfl

theorem Io.commonPoint (e : Enc F K A) (p : A) : Io (W.commonPoint e p) fun _ => True := by
  intro s
  unfold W.commonPoint
  rcases e.coords p with _ | ⟨x, y⟩ <;> simp

theorem Io.fails {α : Type} {err : Err} {x : Option α} {a : α} (h : x = some a) :
    Io (fails err x : W F α) (· = a) := by
  subst h; exact Io.pure _ _ rfl

/-- A loop with transcript operations follows the loop without them. -/
theorem Io.mapSW {α β γ S : Type} {f : α → S → W F (β × S)} {g : α → S → Option (γ × S)}
    {π : β → γ} {Qb : β → Prop} (l : List α) (s : S) {cs : List γ} {s' : S}
    (hg : mapS g l s = some (cs, s'))
    (step : ∀ a ∈ l, ∀ s c s', g a s = some (c, s') →
      Io (f a s) fun r => π r.1 = c ∧ r.2 = s' ∧ Qb r.1) :
    Io (mapSW f l s) fun r => r.1.map π = cs ∧ r.2 = s' ∧ ∀ b ∈ r.1, Qb b := by
  induction l generalizing s cs with
  | nil => cases hg; exact Io.pure _ _ ⟨rfl, rfl, by simp⟩
  | cons a l ih =>
    rw [mapS] at hg
    obtain ⟨⟨c, s₁⟩, h1, hg⟩ := Option.bind_eq_some_iff.1 hg
    obtain ⟨⟨cs₁, s₂⟩, h2, hg⟩ := Option.map_eq_some_iff.1 hg
    cases hg
    rw [Protocol.mapSW]
    refine (step a (by simp) s c s₁ h1).bind ?_
    rintro ⟨b, _⟩ ⟨rfl, rfl, hb⟩
    refine (ih _ h2 fun a ha => step a (by simp [ha])).bind ?_
    rintro ⟨bs, _⟩ ⟨rfl, rfl, hbs⟩
    exact Io.pure _ _ ⟨rfl, rfl, by
      intro b' hb'
      rcases List.mem_cons.1 hb' with rfl | hb'
      · exact hb
      · exact hbs b' hb'⟩

theorem commitPermutedW_io {e : Enc F K A} (hs : Setup threads pr d) (ht : threads ≠ 0) {bf : ℕ}
    {theta : F} {rng : Rng F} {P : Prep F} {v c : Leaves} {l : Lookup F} {ctx ctx' : List (List F)}
    {p : Permuted F}
    (h : Verif.Plonk.commitPermuted threads d bf theta rng.permuted P.vctx P.vf v P.cf c l ctx
      = some (p, ctx')) :
    Io (commitPermutedW threads e pr d bf theta rng P v c l ctx) fun r => r.1.1 = p ∧ r.2 = ctx' ∧
      (r.1.1.aPoly.length = d.n ∧ r.1.1.sPoly.length = d.n) := by
  obtain ⟨h1, h2⟩ := commitPermuted_inv h
  obtain ⟨h3, h4⟩ := lag_commit hs ht h1 (rng.permutedBlind ctx.length).1
  obtain ⟨h5, h6⟩ := lag_commit hs ht h2 (rng.permutedBlind ctx.length).2
  unfold commitPermutedW
  refine (Io.fails h).bind ?_
  rintro _ rfl
  exact (Io.panics h3).bind fun _ _ => (Io.panics h5).bind fun _ _ =>
    (Io.writePoint _ _).bind fun _ _ => (Io.writePoint _ _).bind fun _ _ =>
    Io.pure _ _ ⟨rfl, rfl, h4, h6⟩

theorem commitRowsW_io {e : Enc F K A} (hs : Setup threads pr d) (ht : threads ≠ 0) {rng : Rng F}
    {z : List F} {ctx ctx' : List (List F)} {p : Product F}
    (h : Verif.Plonk.commitRows threads d z ctx = some (p, ctx')) :
    Io (commitRowsW threads e pr d rng z ctx) fun r => r.1.1 = p ∧ r.2 = ctx' ∧
      r.1.1.poly.length = d.n := by
  have h1 := commitRows_inv h
  obtain ⟨h3, h4⟩ := lag_commit hs ht h1 (rng.productBlind ctx.length)
  unfold commitRowsW
  refine (Io.panics h).bind ?_
  rintro _ rfl
  exact (Io.panics h3).bind fun _ _ => (Io.writePoint _ _).bind fun _ _ =>
    Io.pure _ _ ⟨rfl, rfl, h4⟩

theorem commitPermutationW_io {e : Enc F K A} (hs : Setup threads pr d) (ht : threads ≠ 0)
    {cs : Cs F} {delta beta gamma : F} {rng : Rng F} {pk : Pk F} {w : Circuit F}
    {ctx ctx' : List (List F)} {zs : List (Product F)}
    (h : Verif.Plonk.commitPermutation threads d cs delta beta gamma rng.permutation pk w ctx
      = some (zs, ctx')) :
    Io (commitPermutationW threads e pr d cs delta beta gamma rng pk w ctx) fun r =>
      r.1.map Prod.fst = zs ∧ r.2 = ctx' ∧ ∀ p ∈ r.1, p.1.poly.length = d.n := by
  unfold Verif.Plonk.commitPermutation at h
  split_ifs at h with hok
  obtain ⟨z, h1, h2⟩ := Option.bind_eq_some_iff.1 h
  unfold commitPermutationW
  rw [if_pos hok]
  refine (Io.panics h1).bind ?_
  rintro _ rfl
  exact Io.mapSW _ _ h2 fun a _ s c s' hg => commitRowsW_io hs ht hg

theorem commitProductW_io {e : Enc F K A} (hs : Setup threads pr d) (ht : threads ≠ 0) {bf : ℕ}
    {beta gamma : F} {rng : Rng F} {p : Permuted F × F × F} {ctx ctx' : List (List F)}
    {z : Product F}
    (h : Verif.Plonk.commitProduct threads d bf beta gamma rng.lookup p.1 ctx = some (z, ctx')) :
    Io (commitProductW threads e pr d bf beta gamma rng p ctx) fun r =>
      r.1.1 = z ∧ r.2 = ctx' ∧ r.1.1.poly.length = d.n := by
  unfold Verif.Plonk.commitProduct at h
  obtain ⟨v, h1, h2⟩ := Option.bind_eq_some_iff.1 h
  unfold commitProductW
  refine (Io.panics h1).bind ?_
  rintro _ rfl
  exact commitRowsW_io hs ht h2

theorem columns_io {e : Enc F K A} (hs : Setup threads pr d) (cs : Cs F)
    (hbf : cs.blindingFactors + 1 ≤ d.n) (repr : F) (rng : Rng F)
    (circuits instances : List (List (List F))) (hl : circuits.length = instances.length)
    (hf : Fits cs d.n instances)
    (hlen : ∀ q ∈ circuits.zipIdx,
      ∀ v ∈ blindCircuit d.n cs.blindingFactors rng.adviceRows q.2 q.1, v.length = d.n) :
    Io (proverColumns e pr d cs repr rng circuits instances)
      (· = witness d.n cs.blindingFactors rng circuits instances) := by
  have hfit : ∀ i ∈ instances, ∀ v ∈ i, cs.blindingFactors + 1 ≤ d.n ∧
        v.length ≤ d.n - (cs.blindingFactors + 1) := fun i hi v hv => ⟨hbf, hf.2.2 i hi v hv⟩
  have hI : ∀ i ∈ instances, Io (proverInstance e pr d cs i) (· = i.map (pad d.n)) := by
    intro i hi
    rw [proverInstance_eq hs e cs i (hfit i hi)]
    exact Io.then' (Io.mapM _ fun p _ => Io.commonPoint e p)
  have hA : ∀ q ∈ circuits.zipIdx, Io (proverAdvice e pr cs rng q.2 q.1)
      (· = blindCircuit d.n cs.blindingFactors rng.adviceRows q.2 q.1) := by
    intro q hq
    rw [proverAdvice_eq hs e cs rng hbf q.2 q.1 (hlen q hq)]
    exact Io.then' (Io.mapM _ fun p _ => Io.writePoint e p)
  have hR : Io (W.commonScalar e repr) fun _ => True := fun _ => trivial
  unfold proverColumns
  rw [check_true _ hl, check_true _ hf.1]
  simp only [pure_bind]
  refine hR.bind fun _ _ => (Io.mapM_eq _ hI).bind ?_
  intro insts hinsts
  refine (Io.mapM_eq _ hA).bind ?_
  intro advices hadv
  refine Io.pure _ _ ?_
  rw [hinsts, hadv]
  rfl

/-- What the stages up to the product columns leave to the quotient. -/
def Quotients (threads : ℕ) (d : Domain F) (cs : Cs F) (delta : F) (P : Prep F)
    (theta beta gamma : F) (permuted : List (List (Permuted F × F × F)))
    (products lookupProducts : List (List (Product F × F))) (ctx : List (List F)) : Prop :=
  ∀ y, ∃ exprs pieces,
    (((P.ca.zip P.ci).zip (products.zip (permuted.zip lookupProducts))).mapM
      fun (q : (List ℕ × List ℕ) × List (Product F × F) × List (Permuted F × F × F) ×
          List (Product F × F)) =>
        Verif.Plonk.proverExpressions cs delta ⟨theta, beta, gamma, y⟩ P.cf ⟨q.1.1, q.1.2⟩ P.perm
          P.l0 P.lBlind P.lLast (q.2.1.map Prod.fst)
          ((q.2.2.1.map Prod.fst).zip (q.2.2.2.map Prod.fst))) = some exprs ∧
    Verif.Vanishing.construct threads d ctx exprs.flatten y = some pieces

theorem products_io {e : Enc F K A} (he : e.Valid) (hs : Setup threads pr d) (ht : threads ≠ 0)
    {cs : Cs F} {delta : F} {rng : Rng F} {pk : Pk F} {ws : List (Circuit F)} {P : Prep F}
    (h : ∀ theta, ∃ permuted ctx₁,
      mapS (fun (q : (List ℕ × List ℕ) × List ℕ × List ℕ) =>
        mapS (Verif.Plonk.commitPermuted threads d cs.blindingFactors theta rng.permuted P.vctx P.vf
          ⟨q.2.1, q.1.1⟩ P.cf ⟨q.2.2, q.1.2⟩) cs.lookups)
        ((P.vi.zip P.ci).zip (P.va.zip P.ca)) P.ctx = some (permuted, ctx₁) ∧
    ∀ beta gamma, ∃ products ctx₂ lookupProducts ctx,
      mapS (Verif.Plonk.commitPermutation threads d cs delta beta gamma rng.permutation pk) ws ctx₁
        = some (products, ctx₂) ∧
      mapS (fun ps => mapS (Verif.Plonk.commitProduct threads d cs.blindingFactors beta gamma
        rng.lookup) ps) permuted ctx₂ = some (lookupProducts, ctx) ∧
    ∀ y, ∃ exprs pieces,
      (((P.ca.zip P.ci).zip (products.zip (permuted.zip lookupProducts))).mapM
        fun (q : (List ℕ × List ℕ) × List (Product F) × List (Permuted F) × List (Product F)) =>
        Verif.Plonk.proverExpressions cs delta ⟨theta, beta, gamma, y⟩ P.cf ⟨q.1.1, q.1.2⟩ P.perm
          P.l0 P.lBlind P.lLast q.2.1 (q.2.2.1.zip q.2.2.2)) = some exprs ∧
      Verif.Vanishing.construct threads d ctx exprs.flatten y = some pieces) :
    Io (proverProducts threads e pr d cs delta rng pk ws P) fun p =>
      Quotients threads d cs delta P p.1 p.2.1 p.2.2.1 p.2.2.2.1 p.2.2.2.2.1 p.2.2.2.2.2.1
        p.2.2.2.2.2.2 ∧
      (∀ ps ∈ p.2.2.2.1, ∀ q ∈ ps, q.1.aPoly.length = d.n ∧ q.1.sPoly.length = d.n) ∧
      (∀ ps ∈ p.2.2.2.2.1, ∀ q ∈ ps, q.1.poly.length = d.n) ∧
      ∀ ps ∈ p.2.2.2.2.2.1, ∀ q ∈ ps, q.1.poly.length = d.n := by
  unfold proverProducts
  refine (Io.squeeze he).bind fun theta _ => ?_
  obtain ⟨pm, ctx₁, h1, h⟩ := h theta
  refine (Io.mapSW (π := List.map Prod.fst)
    (Qb := fun ps => ∀ q ∈ ps, q.1.aPoly.length = d.n ∧ q.1.sPoly.length = d.n) _ _ h1
    fun a _ s c s' hg => Io.mapSW _ _ hg fun l _ s c s' hg => commitPermutedW_io hs ht hg).bind ?_
  rintro ⟨permuted, _⟩ ⟨rfl, rfl, hp⟩
  refine (Io.squeeze he).bind fun beta _ => (Io.squeeze he).bind fun gamma _ => ?_
  obtain ⟨pd, ctx₂, lp, ctx, h2, h3, h⟩ := h beta gamma
  refine (Io.mapSW (π := List.map Prod.fst)
    (Qb := fun ps => ∀ q ∈ ps, q.1.poly.length = d.n) _ _ h2
    fun a _ s c s' hg => commitPermutationW_io hs ht hg).bind ?_
  rintro ⟨products, _⟩ ⟨rfl, rfl, hpd⟩
  rw [Verif.Plonk.mapS_map] at h3
  refine (Io.mapSW (π := List.map Prod.fst)
    (Qb := fun ps => ∀ q ∈ ps, q.1.poly.length = d.n) _ _ h3
    fun a _ s c s' hg => by
      rw [Verif.Plonk.mapS_map] at hg
      exact Io.mapSW _ _ hg fun l _ s c s' hg => commitProductW_io hs ht hg).bind ?_
  rintro ⟨lookupProducts, _⟩ ⟨rfl, rfl, hlp⟩
  refine Io.pure _ _ ⟨?_, hp, hpd, hlp⟩
  intro y
  obtain ⟨exprs, pieces, h4, h5⟩ := h y
  refine ⟨exprs, pieces, ?_, h5⟩
  rw [List.zip_map, List.zip_map, List.zip_map_right, Verif.Plonk.mapM_map'] at h4
  exact h4

theorem quotient_io {e : Enc F K A} (he : e.Valid) (hs : Setup threads pr d) (ht : threads ≠ 0)
    {cs : Cs F} {delta : F} {rng : Rng F} {P : Prep F} {theta beta gamma : F}
    {permuted : List (List (Permuted F × F × F))}
    {products lookupProducts : List (List (Product F × F))} {ctx : List (List F)}
    (h : Quotients threads d cs delta P theta beta gamma permuted products lookupProducts ctx) :
    Io (proverQuotient threads e pr d cs delta rng P theta beta gamma permuted products
      lookupProducts ctx) fun p => p.2.1.length = d.n ∧ ∀ r ∈ p.2.2, r.length = d.n := by
  unfold proverQuotient
  refine (Io.panics (hs.commit ((List.range d.n).map rng.randomPoly) rng.randomBlind
    (by simp))).bind fun _ _ => (Io.writePoint _ _).bind fun _ _ => (Io.squeeze he).bind fun y _ => ?_
  obtain ⟨exprs, pieces, h1, h2⟩ := h y
  obtain ⟨-, hn⟩ := construct_lengths hs.domain ht h2
  refine (Io.panics h1).bind ?_
  rintro _ rfl
  refine (Io.panics h2).bind ?_
  rintro _ rfl
  refine (Io.panics (mapM_some _ (commitOf pr) ?_)).bind fun _ _ =>
    (Io.mapM _ fun _ _ => Io.writePoint _ _).bind fun _ _ => (Io.squeeze he).bind fun x _ =>
    Io.pure _ _ ⟨by simp, hn⟩
  intro q hq
  obtain ⟨i, hi, rfl⟩ := List.mem_mapIdx.1 hq
  exact hs.commit _ _ (hn _ (List.getElem_mem _))

theorem queryEvals_some {x : F} {polys : List (List F)} {queries : List (ℕ × ℤ)}
    (h : ∀ q ∈ queries, q.1 < polys.length) : ∃ ev, queryEvals d x polys queries = some ev := by
  unfold Verif.Plonk.queryEvals
  exact ⟨_, mapM_some queries (fun q => evalPolynomial (polys.getD q.1 []) (d.rotateOmega x q.2))
    fun q hq => by
      rw [List.getElem?_eq_getElem (h q hq), Option.map_some, List.getD_eq_getElem _ _ (h q hq)]⟩

theorem evalQueries_io {e : Enc F K A} {x : F} {polys : List (List F)} {queries : List (ℕ × ℤ)}
    (h : ∀ q ∈ queries, q.1 < polys.length) :
    Io (evalQueries e d x queries polys) fun _ => True := by
  obtain ⟨ev, hev⟩ := queryEvals_some (d := d) (x := x) h
  unfold evalQueries
  exact (Io.panics hev).bind fun _ _ => (Io.mapM _ fun _ _ => Io.writeScalar _ _).bind fun _ _ =>
    Io.pure _ _ trivial

theorem evalPermutation_io {e : Enc F K A} {bf : ℕ} {x : F} (zs : List (List F)) :
    Io (evalPermutation e d bf x zs) fun _ => True := by
  induction zs with
  | nil => exact Io.pure _ _ trivial
  | cons z zs ih =>
    unfold evalPermutation
    refine (Io.writeScalar _ _).bind fun _ _ => (Io.writeScalar _ _).bind fun _ _ =>
      Io.bind (Q := fun _ => True) ?_ fun _ _ => ih
    split_ifs
    · exact Io.writeScalar _ _
    · exact Io.pure _ _ trivial

theorem open_ends {e : Enc F K A} (he : e.Valid) (h0 : ∀ bs, e.fromUniform bs ≠ 0)
    (hs : Setup threads pr d) (ht : threads ≠ 0) {cs : Cs F} {rng : Rng F} {pk : Pk F}
    {os : List (Opens (List F × F))} {x : F} {random : List F} {pieces : List (List F)}
    (hfl : ∀ p ∈ pk.fixedPolys, p.length = d.n) (hpl : ∀ p ∈ pk.permPolys, p.length = d.n)
    (hfq : ∀ q ∈ cs.fixedQueries, q.1 < pk.fixedPolys.length)
    (hos : ∀ o ∈ os, o.Sized d.n) (hiq : ∀ o ∈ os, ∀ q ∈ cs.instanceQueries, q.1 < o.inst.length)
    (haq : ∀ o ∈ os, ∀ q ∈ cs.adviceQueries, q.1 < o.advice.length)
    (hr : random.length = d.n) (hpc : ∀ p ∈ pieces, p.length = d.n) :
    Ends (proverOpen threads e pr d cs rng pk os x random pieces) fun _ => True := by
  have hn : d.n ≠ 0 := by rw [hs.domain.n_eq]; positivity
  obtain ⟨out, ho1, ho2, -⟩ := Verif.Vanishing.recombine_spec hs.domain threads ht (x ^ pr.n)
    pieces hpc
  unfold proverOpen
  refine Ends.bind (Io.mapM _ fun o ho => evalQueries_io (by simpa using hiq o ho)) fun _ _ =>
    Ends.bind (Io.mapM _ fun o ho => evalQueries_io (by simpa using haq o ho)) fun _ _ =>
    Ends.bind (evalQueries_io hfq) fun _ _ => Ends.bind (Io.panics ho1) ?_
  intro out' hout
  subst out'
  refine Ends.bind (Io.writeScalar _ _) fun _ _ =>
    Ends.bind (Io.mapM _ fun _ _ => Io.writeScalar _ _) fun _ _ =>
    Ends.bind (Io.mapM _ fun _ _ => evalPermutation_io _) fun _ _ =>
    Ends.bind (Io.mapM _ fun _ _ => Io.mapM _ fun _ _ => by
      unfold evalLookup
      exact (Io.writeScalar _ _).bind fun _ _ => (Io.writeScalar _ _).bind fun _ _ =>
        (Io.writeScalar _ _).bind fun _ _ => (Io.writeScalar _ _).bind fun _ _ =>
        Io.writeScalar _ _) fun _ _ => Io.mapErr ?_
  have hqok := proverQueries_ok (d := d) (cs := cs) (x := x) (os := os)
    (fun o ho => ⟨hos o ho, by
      obtain ⟨ei, h1⟩ := queryEvals_some (d := d) (x := x) (polys := o.inst.map Prod.fst)
        (queries := cs.instanceQueries) (by simpa using hiq o ho)
      obtain ⟨ea, h2⟩ := queryEvals_some (d := d) (x := x) (polys := o.advice.map Prod.fst)
        (queries := cs.adviceQueries) (by simpa using haq o ho)
      unfold Verif.Plonk.circuitEvals proofOf
      rw [h1, Option.bind_some, h2]
      exact ⟨_, rfl⟩⟩)
    (pk.fixedPolys.map fun p => (p, (1 : F))) (pk.permPolys.map fun p => (p, (1 : F)))
    (by simpa using hfl) (by simpa using hpl) (by simpa using hfq)
    (h := (out, Verif.Vanishing.recombineBlind (x ^ pr.n) (pieces.mapIdx fun i _ => rng.hBlind i)))
    (random := (random, rng.randomBlind)) ho2 hr
  rw [List.length_map] at hqok
  refine Verif.Multiopen.createProof_io threads ht he h0 pr hs.params _ _ _ _
    (by simp [proverQueries]) (fun q hq => (hqok q hq).1.trans hs.n_eq.symm) (x ^ d.n) ?_
  intro q hq
  rw [hs.n_eq]
  rcases (hqok q hq).2 with h | ⟨r, h⟩
  · rw [h]
  · rw [h, rotate_pow hs.domain]

set_option maxHeartbeats 1000000 in
theorem createProof_ends {e : Enc F K A} (he : e.Valid) (h0 : ∀ bs, e.fromUniform bs ≠ 0)
    (hs : Setup threads pr d) (ht : threads ≠ 0)
    (cs : Cs F) (hr : Ready cs d.n) (hbf : cs.blindingFactors + 1 < d.n) (hn : d.n < 2 ^ 32)
    (hcols : cs.lookups ≠ [] → cs.numFixed + cs.numAdvice + cs.numInstance ≠ 0) (delta repr : F)
    (fv : List (List F)) (hfl : fv.length = cs.numFixed) (hf : ∀ v ∈ fv, v.length = d.n)
    (calls : List (Verif.Copy.Call Column)) (pk : Pk F)
    (hpk : Verif.Plonk.keygenPk threads d cs.blindingFactors fv (permsOf d cs delta calls) = some pk)
    (rng : Rng F) (circuits instances : List (List (List F)))
    (hl : circuits.length = instances.length) (hfits : Fits cs d.n instances)
    (hadv : ∀ c ∈ circuits, c.length = cs.numAdvice ∧ ∀ v ∈ c, v.length = d.n)
    (hsat : ∀ w ∈ witness d.n cs.blindingFactors rng circuits instances, Shaped d cs fv w) :
    Ends (createProof threads e pr d cs delta repr rng pk circuits instances) fun _ => True := by
  obtain ⟨hpl, hpn⟩ := Verif.Permutation.permPolys_length d.omega delta
    (Verif.Permutation.keyMapping cs.permutation d.n calls)
  obtain ⟨pk', fp, pp, -, -, -, hpk', ⟨-, k2, -, -, k5, -⟩, ⟨fpl, fpr⟩, ⟨ppl, -⟩, -⟩ :=
    Verif.Plonk.keygenPk_spec hs.domain ht cs.blindingFactors hbf fv (permsOf d cs delta calls) hf
      hpn
  cases hpk.symm.trans hpk'
  have hfpl : pk.fixedPolys.length = cs.numFixed := by
    rw [k2, ← hfl, ← fpr, List.length_map]
  obtain ⟨P, hP, hst⟩ := Verif.Plonk.stages_total hs.domain threads ht cs hr hbf hn hcols delta
    rng.permuted rng.permutation rng.lookup fv hfl hf (permsOf d cs delta calls) hpl hpn pk hpk _
    hsat
  obtain ⟨p1, p2, p3, p4, p5⟩ := prepare_spec hs ht hP (fun w hw => (hsat w hw).inst)
    (fun w hw => (hsat w hw).advice)
  unfold createProof
  refine Ends.bind (columns_io hs cs hbf.le repr rng circuits instances hl hfits ?_) ?_
  · intro q hq v hv
    have hc := hadv q.1 (List.fst_mem_of_mem_zipIdx hq)
    obtain ⟨i, hi, rfl⟩ := List.mem_mapIdx.1 hv
    exact blindColumn_length _ (hc.2 _ (List.getElem_mem _))
  rintro _ rfl
  refine Ends.bind (Io.panics hP) ?_
  intro P' hP'
  subst P'
  refine Ends.bind (products_io he hs ht hst) ?_
  rintro ⟨theta, beta, gamma, permuted, products, lookupProducts, ctx⟩ ⟨hq, h1, h2, h3⟩
  refine Ends.bind (quotient_io he hs ht hq) ?_
  rintro ⟨x, random, pieces⟩ ⟨h4, h5⟩
  have hmem : ∀ o ∈ opensList P rng (witness d.n cs.blindingFactors rng circuits instances)
      products permuted lookupProducts, o.inst.length = cs.numInstance ∧
      o.advice.length = cs.numAdvice := by
    intro o ho
    obtain ⟨q, hq, rfl⟩ := List.mem_map.1 ho
    obtain ⟨i, hi, rfl⟩ := List.mem_iff_getElem.1 hq
    have hi' : i < (witness d.n cs.blindingFactors rng circuits instances).length := by
      simp only [List.length_zip, p1, List.length_map] at hi
      omega
    have hw := hsat _ (List.getElem_mem hi')
    simp only [opensOf, List.getElem_zip, p1, p2, List.getElem_map, List.length_map,
      List.length_zip, List.getElem_mapIdx, List.length_mapIdx]
    exact ⟨hw.instLen, by rw [hw.adviceLen]; simp⟩
  refine open_ends he h0 hs ht (by rw [k2]; exact fpl) (by rw [k5]; exact ppl)
    (fun q hq => by rw [hfpl]; exact (hr.fixed q hq).1) ?_ ?_ ?_ h4 h5
  · exact opens_sized hs ht p1 p2 (fun w hw => (hsat w hw).inst) (fun w hw => (hsat w hw).advice)
      h1 h2 h3
  · intro o ho q hq
    rw [(hmem o ho).1]; exact (hr.inst q hq).1
  · intro o ho q hq
    rw [(hmem o ho).2]; exact (hr.advice q hq).1

/-- C84: the errors `create_proof` can report, from whatever state its transcript is in. -/
theorem createProof_fails {threads' j k : ℕ} {c : Consts F} (hc : c.Valid)
    {hasher : Bytes → A} (ht : threads ≠ 0) (ht' : threads' ≠ 0)
    (hd : Verif.Domain.new c j k = some d) (hpr : Commitment.Params.new threads' c hasher k = some pr)
    {e : Enc F K A} (he : e.Valid) (h0 : ∀ bs, e.fromUniform bs ≠ 0) (cs : Cs F)
    (hr : Ready cs d.n) (hbf : cs.blindingFactors + 1 < d.n)
    (hcols : cs.lookups ≠ [] → cs.numFixed + cs.numAdvice + cs.numInstance ≠ 0) (delta repr : F)
    (fv : List (List F)) (hfl : fv.length = cs.numFixed) (hf : ∀ v ∈ fv, v.length = d.n)
    (calls : List (Verif.Copy.Call Column)) (pk : Pk F)
    (hpk : Verif.Plonk.keygenPk threads d cs.blindingFactors fv (permsOf d cs delta calls) = some pk)
    (rng : Rng F) (circuits instances : List (List (List F)))
    (hl : circuits.length = instances.length) (hfits : Fits cs d.n instances)
    (hadv : ∀ c ∈ circuits, c.length = cs.numAdvice ∧ ∀ v ∈ c, v.length = d.n)
    (hsat : ∀ w ∈ witness d.n cs.blindingFactors rng circuits instances, Shaped d cs fv w)
    (st : WState F) :
    (∃ st', createProof threads e pr d cs delta repr rng pk circuits instances st = .ok ((), st')) ∨
      createProof threads e pr d cs delta repr rng pk circuits instances st = .error .io ∨
      createProof threads e pr d cs delta repr rng pk circuits instances st = .error .opening := by
  obtain ⟨hs, hk⟩ := setup_of_new ht ht' hc hd hpr
  obtain ⟨h1, -⟩ := Verif.Domain.new_spec c hc j k
  obtain ⟨hv, hdk, -⟩ := h1 d hd
  have hk32 : k < 32 := by
    by_contra hk32
    unfold Commitment.Params.new at hpr; rw [if_pos hk32] at hpr; cases hpr
  have hn : d.n < 2 ^ 32 := by
    rw [hv.n_eq, hdk]; exact Nat.pow_lt_pow_right (by decide) hk32
  have h := createProof_ends he h0 hs ht cs hr hbf hn hcols delta repr fv hfl hf calls pk hpk rng
    circuits instances hl hfits hadv hsat st
  rcases hw : createProof threads e pr d cs delta repr rng pk circuits instances st with
    err | ⟨_, st'⟩
  · rw [hw] at h
    rcases h with rfl | rfl <;> simp
  · exact Or.inl ⟨st', rfl⟩

section Example

open Verif.Toy Verif.Plonk

/-- A hash to the field that never gives zero. -/
def uniform' (bs : Bytes) : G := if uniform bs = 0 then 1 else uniform bs

/-- A circuit whose copy constraint does not hold: the first two rows are asked to be equal. -/
def exBroken : List (List (List G)) := [[[1, 0, 0, 0, 0, 0, 0, 0]]]

/-- The hypotheses of `createProof_fails` hold of a witness that breaks a copy constraint: the prover
does not panic, whatever its randomness and whatever transcript it starts from. -/
theorem exBroken_fails (rng : Rng G) (st : WState G) :
    ∃ d pr pk, Verif.Domain.new consts97 4 3 = some d ∧
    Commitment.Params.new 2 consts97 exHash 3 = some pr ∧
    keygenPk 2 d 5 exFixed (permsOf d exCs 5 exCalls) = some pk ∧
    ((∃ st', createProof 2 (enc sumHash uniform') pr d exCs 5 2 rng pk exBroken [[]] st
        = .ok ((), st')) ∨
      createProof 2 (enc sumHash uniform') pr d exCs 5 2 rng pk exBroken [[]] st = .error .io ∨
      createProof 2 (enc sumHash uniform') pr d exCs 5 2 rng pk exBroken [[]] st
        = .error .opening) := by
  have h := exRun_eq
  unfold exRun at h
  obtain ⟨d, hd, h⟩ := Option.bind_eq_some_iff.1 h
  obtain ⟨pr, hpr, h⟩ := Option.bind_eq_some_iff.1 h
  obtain ⟨pk, hpk, -⟩ := Option.bind_eq_some_iff.1 h
  refine ⟨d, pr, pk, hd, hpr, hpk, ?_⟩
  obtain ⟨h1, -⟩ := Verif.Domain.new_spec consts97 consts97_valid 4 3
  obtain ⟨hv, hk, -⟩ := h1 d hd
  have hn : d.n = 8 := by rw [hv.n_eq, hk]; rfl
  refine createProof_fails (threads := 2) (threads' := 2) consts97_valid (by decide) (by decide) hd hpr (enc_valid _ _) ?_ exCs
    (hn ▸ exReady) (by rw [ex_bf, hn]; decide) (by decide) 5 2 exFixed rfl
    (by rw [hn]; decide) exCalls pk (by rw [ex_bf]; exact hpk) rng exBroken [[]] rfl ?_ ?_ ?_ st
  · intro bs
    change uniform' bs ≠ 0
    unfold uniform'
    split_ifs with h
    · decide
    · exact h
  · rw [hn]; refine ⟨by decide, by decide, by decide⟩
  · rw [hn]; decide
  · have hwit : witness d.n exCs.blindingFactors rng exBroken [[]]
        = [⟨[[1, 0] ++ (List.range 6).map fun r => rng.adviceRows 0 0 r], []⟩] := by
      rw [hn, ex_bf]; rfl
    rw [hwit]
    intro w hw
    rw [List.mem_singleton] at hw
    subst hw
    refine ⟨rfl, rfl, ?_, ?_, ?_⟩
    · rw [hn]; simp
    · simp
    · rw [hn, ex_bf]
      intro l hl i hi
      have hl' : l = ⟨[exAdvice], [.fixed ⟨0, 0, 0⟩]⟩ := by simpa [exCs] using hl
      subst hl'
      have : i = 0 ∨ i = 1 := by omega
      rcases this with rfl | rfl
      · exact ⟨1, by decide, rfl⟩
      · exact ⟨0, by decide, rfl⟩

/-- And it does return a proof, which does not verify. -/
theorem exBroken_run :
    ((Verif.Domain.new consts97 4 3).bind fun d =>
    (Commitment.Params.new 2 consts97 exHash 3).bind fun pr =>
    (keygenPk 2 d 5 exFixed (permsOf d exCs 5 exCalls)).bind fun pk =>
    (keygenVk pr 2 exFixed (permsOf d exCs 5 exCalls)).bind fun vk =>
    (createProof 2 (enc sumHash uniform') pr d exCs 5 2 exRng pk exBroken [[]]
      W.init).toOption.map fun r =>
      (verifySingle (enc sumHash uniform') pr d exCs 5 vk [[]] (R.init r.2.out)).toOption.isSome)
    = some false := by
  decide +kernel

end Example

end Verif.Protocol
