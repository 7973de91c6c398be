import Verif.Plonk.Degree
import Verif.Vanishing.Props
import Verif.PolyArith.Props

/-!
# Lemmas for the constraint part of prover and verifier
-/

namespace Verif.Plonk

open Verif.Expr Verif.ExprEval
open Verif.Cs (Cs Column Lookup)
open Verif.Domain (Domain evalsOn)
open Verif.Evaluator (Ast denote LeavesOk LeavesOkList)
open Verif.PolyArith (evalPolynomial toPoly)
open Verif.Fft (tab)
open Polynomial (C X)

variable {F : Type*} [Field F]

section Lists

variable {α β S : Type*}

theorem mapM_zip {f : α → Option β} {R : α → β → Prop} (l : List α)
    (h : ∀ a ∈ l, ∃ b, f a = some b ∧ R a b) :
    ∃ z : List (α × β), z.map Prod.fst = l ∧ l.mapM f = some (z.map Prod.snd) ∧
      ∀ x ∈ z, R x.1 x.2 := by
  induction l with
  | nil => exact ⟨[], rfl, rfl, by simp⟩
  | cons a l ih =>
    obtain ⟨b, hb, hr⟩ := h a (by simp)
    obtain ⟨z, z1, z2, z3⟩ := ih fun x hx => h x (by simp [hx])
    refine ⟨(a, b) :: z, by simp [z1], ?_, ?_⟩
    · rw [List.mapM_cons, hb, z2]; rfl
    · intro x hx
      rcases List.mem_cons.1 hx with rfl | hx
      · exact hr
      · exact z3 x hx

/-- A stateful map whose steps keep an invariant `I` of the state and only extend it. -/
theorem mapS_zip {f : α → S → Option (β × S)} {I : S → Prop} {le : S → S → Prop}
    {R : α → β → S → Prop} (refl : ∀ s, le s s) (trans : ∀ a b c, le a b → le b c → le a c)
    (mono : ∀ a b s s', le s s' → R a b s → R a b s') (l : List α)
    (step : ∀ a ∈ l, ∀ s, I s → ∃ b s', f a s = some (b, s') ∧ I s' ∧ le s s' ∧ R a b s')
    (s : S) (hs : I s) :
    ∃ (z : List (α × β)) (s' : S), z.map Prod.fst = l ∧ mapS f l s = some (z.map Prod.snd, s') ∧
      I s' ∧ le s s' ∧ ∀ x ∈ z, R x.1 x.2 s' := by
  induction l generalizing s with
  | nil => exact ⟨[], s, rfl, rfl, hs, refl s, by simp⟩
  | cons a l ih =>
    obtain ⟨b, s1, h1, h2, h3, h4⟩ := step a (by simp) s hs
    obtain ⟨z, s2, z1, z2, z3, z4, z5⟩ := ih (fun x hx => step x (by simp [hx])) s1 h2
    refine ⟨(a, b) :: z, s2, by simp [z1], ?_, z3, trans _ _ _ h3 z4, ?_⟩
    · rw [mapS, h1, Option.bind_some]; simp only; rw [z2]; rfl
    · intro x hx
      rcases List.mem_cons.1 hx with rfl | hx
      · exact mono _ _ _ _ z4 h4
      · exact z5 x hx

theorem mapS_map {γ : Type*} (f : α → S → Option (β × S)) (g : γ → α) (l : List γ) (s : S) :
    mapS f (l.map g) s = mapS (fun c => f (g c)) l s := by
  induction l generalizing s with
  | nil => rfl
  | cons c l ih => simp only [List.map_cons, mapS, ih]

theorem mapM_map' {γ : Type*} (f : α → Option β) (g : γ → α) (l : List γ) :
    (l.map g).mapM f = l.mapM fun c => f (g c) := by
  induction l with
  | nil => rfl
  | cons c l ih => rw [List.map_cons, List.mapM_cons, List.mapM_cons, ih]

/-- `ctx[i]` is `p`. -/
def At (ctx : List α) (p : α) (i : ℕ) : Prop := ctx[i]? = some p

theorem At.mono {ctx ctx' : List α} {p : α} {i : ℕ} (h : At ctx p i) (hle : ctx <+: ctx') :
    At ctx' p i := by
  obtain ⟨t, rfl⟩ := hle
  rw [At, List.getElem?_append_left (List.getElem?_eq_some_iff.1 h).1]
  exact h

theorem register_spec (p : α) (ctx : List α) :
    register p ctx = some (ctx.length, ctx ++ [p]) ∧ At (ctx ++ [p]) p ctx.length ∧
      ctx <+: ctx ++ [p] :=
  ⟨rfl, by simp [At], List.prefix_append _ _⟩

/-- Registering a list of polynomials satisfying an invariant. -/
theorem registerAll_spec {Q : α → Prop} (ps : List α) (hp : ∀ p ∈ ps, Q p) (ctx : List α)
    (hctx : ∀ p ∈ ctx, Q p) :
    ∃ leaves ctx', mapS register ps ctx = some (leaves, ctx') ∧ (∀ p ∈ ctx', Q p) ∧
      ctx <+: ctx' ∧ List.Forall₂ (At ctx') ps leaves := by
  obtain ⟨z, ctx', z1, z2, z3, z4, z5⟩ := mapS_zip (f := register) (I := fun c => ∀ p ∈ c, Q p)
    (le := fun a b => a <+: b) (R := fun p i c => At c p i) (fun s => List.prefix_refl s)
    (fun _ _ _ h h' => h.trans h') (fun _ _ _ _ h h' => h'.mono h) ps
    (fun p hpm c hc => ⟨c.length, c ++ [p], rfl, by
      intro x hx
      rcases List.mem_append.1 hx with hx | hx
      · exact hc x hx
      · rw [List.mem_singleton.1 hx]; exact hp p hpm, (register_spec p c).2.2,
        (register_spec p c).2.1⟩) ctx hctx
  refine ⟨_, ctx', z2, z3, z4, ?_⟩
  rw [← z1, List.forall₂_map_left_iff, List.forall₂_map_right_iff, List.forall₂_same]
  exact z5

theorem At.forall₂_mono {ctx ctx' : List α} {ps : List α} {is : List ℕ}
    (h : List.Forall₂ (At ctx) ps is) (hle : ctx <+: ctx') : List.Forall₂ (At ctx') ps is :=
  h.imp fun _ _ h => h.mono hle

theorem forall₂_getD {γ : Type*} {R : α → γ → Prop} {l : List α} {r : List γ}
    (h : List.Forall₂ R l r) (i : ℕ) (hi : i < l.length) (a : α) (c : γ) :
    R (l.getD i a) (r.getD i c) := by
  have hr : i < r.length := by rw [← h.length_eq]; exact hi
  rw [List.getD_eq_getElem _ _ hi, List.getD_eq_getElem _ _ hr]
  exact h.get hi hr

end Lists

variable {d : Domain F}

/-- Evaluations on the coset. -/
noncomputable def ev (d : Domain F) (p : List F) : List F :=
  evalsOn d.gCoset d.extendedOmega d.extendedLen (toPoly p)

/-- Evaluations on the domain. -/
noncomputable def rows (d : Domain F) (p : List F) : List F := evalsOn 1 d.omega d.n (toPoly p)

theorem toCoeffs_spec (hd : d.Valid) (threads : ℕ) (ht : threads ≠ 0) (v : List F)
    (hv : v.length = d.n) :
    ∃ p, d.lagrangeToCoeff threads v = some p ∧ p.length = d.n ∧ rows d p = v := by
  obtain ⟨h1, h2⟩ := Verif.Domain.lagrangeToCoeff_spec hd threads ht v
  rcases hp : d.lagrangeToCoeff threads v with _ | p
  · exact absurd hv (h1.2 hp)
  · exact ⟨p, rfl, (h2 p hp).1, (h2 p hp).2.1⟩

theorem coset_spec (hd : d.Valid) (threads : ℕ) (ht : threads ≠ 0) (p : List F)
    (hp : p.length = d.n) : d.coeffToExtended threads p = some (ev d p) := by
  rw [Verif.Domain.coeffToExtended_spec hd threads ht, if_pos hp]; rfl

theorem columns_spec (hd : d.Valid) (threads : ℕ) (ht : threads ≠ 0) (vs : List (List F))
    (hv : ∀ v ∈ vs, v.length = d.n) :
    ∃ ps, toCoeffs threads d vs = some ps ∧ toCosets threads d ps = some (ps.map (ev d)) ∧
      (∀ p ∈ ps, p.length = d.n) ∧ ps.map (rows d) = vs := by
  obtain ⟨z, z1, z2, z3⟩ := mapM_zip (f := fun v => d.lagrangeToCoeff threads v)
    (R := fun v p => p.length = d.n ∧ rows d p = v) vs
    (fun v hm => toCoeffs_spec hd threads ht v (hv v hm))
  refine ⟨z.map Prod.snd, z2, ?_, ?_, ?_⟩
  · refine Verif.Evaluator.mapM_eq_some _ ?_
    intro p hp
    obtain ⟨x, hx, rfl⟩ := List.mem_map.1 hp
    exact coset_spec hd threads ht _ (z3 x hx).1
  · intro p hp
    obtain ⟨x, hx, rfl⟩ := List.mem_map.1 hp
    exact (z3 x hx).1
  · rw [← z1, List.map_map]
    exact List.map_congr_left fun x hx => (z3 x hx).2

/-- Every polynomial of the coset evaluator comes from `n` coefficients. -/
def Good (d : Domain F) (c : List F) : Prop := ∃ p : List F, p.length = d.n ∧ c = ev d p

theorem toPoly_degree {p : List F} (hp : p.length = d.n) :
    (toPoly p).degree < ((d.n : ℕ) : WithBot ℕ) := by
  have := Verif.PolyArith.degree_toPoly_lt p
  rwa [hp] at this

theorem n_le_ext (hd : d.Valid) : d.n ≤ d.extendedLen := by
  rw [hd.n_eq]; exact Verif.Domain.extendedLen_ge hd

theorem ev_injective (hd : d.Valid) {p q : List F} (hp : p.length = d.n) (hq : q.length = d.n)
    (h : ev d p = ev d q) : p = q := by
  have hn : ((d.n : ℕ) : WithBot ℕ) ≤ ((d.extendedLen : ℕ) : WithBot ℕ) := by
    exact_mod_cast n_le_ext hd
  exact Verif.PolyArith.toPoly_injective_of_length (hp.trans hq.symm)
    (Verif.Domain.evalsOn_injective hd ((toPoly_degree hp).trans_le hn)
      ((toPoly_degree hq).trans_le hn) h)

/-- The coefficients behind each leaf of a coset evaluator. -/
theorem exists_coeffs (hd : d.Valid) (ctx : List (List F)) (h : ∀ c ∈ ctx, Good d c) :
    ∃ pc : ℕ → List F, (∀ i, (pc i).length = d.n) ∧ (∀ (i : ℕ) (c : List F), ctx[i]? = some c → c = ev d (pc i)) ∧
      ∀ (p : List F) (i : ℕ), p.length = d.n → At ctx (ev d p) i → pc i = p := by
  have key : ∀ i : ℕ, ∃ p : List F, p.length = d.n ∧ ∀ c, ctx[i]? = some c → c = ev d p := by
    intro i
    rcases hc : ctx[i]? with _ | c
    · exact ⟨List.replicate d.n 0, by simp, by simp⟩
    · obtain ⟨p, hp, hpc⟩ := h c (List.mem_of_getElem? hc)
      exact ⟨p, hp, by rintro c' h; rw [← Option.some.inj h]; exact hpc⟩
  choose pc h1 h2 using key
  exact ⟨pc, h1, h2, fun p i hp hat => ev_injective hd (h1 i) hp (h2 i _ hat).symm⟩

/-- The values of a column polynomial at the rotations of a row. -/
theorem eval_row (hd : d.Valid) (p : List F) (j : ℕ) (r : ℤ) :
    (toPoly p).eval (d.omega ^ r * d.omega ^ j) = (rows d p).getD (rotRow d.n j r) 0 := by
  have hn0 : 0 < d.n := by rw [hd.n_eq]; positivity
  have hw0 : d.omega ≠ 0 := hd.omega_prim.ne_zero (by positivity)
  have hwn : d.omega ^ d.n = 1 := by rw [hd.n_eq]; exact hd.omega_prim.pow_eq_one
  have hlt : rotRow d.n j r < d.n := by
    have h1 := Int.emod_nonneg ((j : ℤ) + r) (b := (d.n : ℤ)) (by omega)
    have h2 := Int.emod_lt_of_pos ((j : ℤ) + r) (b := (d.n : ℤ)) (by omega)
    rw [rotRow]; omega
  have hz : d.omega ^ r * d.omega ^ j = d.omega ^ (rotRow d.n j r) := by
    rw [← zpow_natCast, ← zpow_natCast, ← zpow_add₀ hw0, rotRow,
      Int.toNat_of_nonneg (Int.emod_nonneg _ (by omega)), Int.emod_def, zpow_sub₀ hw0, zpow_mul,
      zpow_natCast, hwn, one_zpow, div_one, add_comm]
  rw [hz, rows, evalsOn]
  rw [List.getD_eq_getElem _ _ (by simpa using hlt)]
  simp

theorem evalPolynomial_rotate (hd : d.Valid) (p : List F) (x : F) (r : ℤ) :
    evalPolynomial p (d.rotateOmega x r) = (toPoly p).eval (d.omega ^ r * x) := by
  rw [Verif.PolyArith.evalPolynomial_eq, Verif.Domain.rotateOmega_eq hd, mul_comm]

/-! ## Constraint systems of a verifying key -/

/-- What key generation guarantees of the constraint system: no selectors left, every query
registered, columns exist, permutation columns queried at the current row. -/
structure Ready (cs : Cs F) (n : ℕ) : Prop where
  gates : ∀ e ∈ cs.gates.flatten, cs.Covers e ∧ e.sels = []
  lookups : ∀ l ∈ cs.lookups, Verif.Lookup.Ok cs l
  perm : ∀ c ∈ cs.permutation, colOk cs c = true ∧ match c.kind with
    | .advice => (c.index, 0) ∈ cs.adviceQueries
    | .fixed => (c.index, 0) ∈ cs.fixedQueries
    | .inst => (c.index, 0) ∈ cs.instanceQueries
  fixed : ∀ q ∈ cs.fixedQueries, q.1 < cs.numFixed ∧ q.2.natAbs ≤ n
  advice : ∀ q ∈ cs.adviceQueries, q.1 < cs.numAdvice ∧ q.2.natAbs ≤ n
  inst : ∀ q ∈ cs.instanceQueries, q.1 < cs.numInstance ∧ q.2.natAbs ≤ n

theorem Ready.colsLt {cs : Cs F} {n : ℕ} (h : Ready cs n) {e : Expr F} (he : cs.Covers e) :
    ColsLt cs.numFixed cs.numAdvice cs.numInstance e := by
  induction e with
  | constant => trivial
  | selector => trivial
  | fixed q => exact (h.fixed _ (List.mem_of_getElem? he)).1
  | advice q => exact (h.advice _ (List.mem_of_getElem? he)).1
  | inst q => exact (h.inst _ (List.mem_of_getElem? he)).1
  | negated a ih => exact ih he
  | scaled a f ih => exact ih he
  | sum a b iha ihb => exact ⟨iha he.1, ihb he.2⟩
  | product a b iha ihb => exact ⟨iha he.1, ihb he.2⟩

theorem Ready.leavesOk {cs : Cs F} {n : ℕ} (h : Ready cs n) {fl al il : List ℕ} {N : ℕ}
    (hf : ∀ i ∈ fl, i < N) (ha : ∀ i ∈ al, i < N) (hi : ∀ i ∈ il, i < N) {e : Expr F}
    (he : cs.Covers e) {t : Ast F} (ht : e.evaluate (astAlg fl al il) = some t) :
    LeavesOk N n t := by
  induction e generalizing t with
  | constant c => simp only [Expr.evaluate, astAlg, Option.some.injEq] at ht; subst ht; trivial
  | selector s => simp [Expr.evaluate, astAlg] at ht
  | fixed q =>
    simp only [Expr.evaluate, astAlg, Option.map_eq_some_iff] at ht
    obtain ⟨i, h1, rfl⟩ := ht
    exact ⟨hf i (List.mem_of_getElem? h1), (h.fixed _ (List.mem_of_getElem? he)).2⟩
  | advice q =>
    simp only [Expr.evaluate, astAlg, Option.map_eq_some_iff] at ht
    obtain ⟨i, h1, rfl⟩ := ht
    exact ⟨ha i (List.mem_of_getElem? h1), (h.advice _ (List.mem_of_getElem? he)).2⟩
  | inst q =>
    simp only [Expr.evaluate, astAlg, Option.map_eq_some_iff] at ht
    obtain ⟨i, h1, rfl⟩ := ht
    exact ⟨hi i (List.mem_of_getElem? h1), (h.inst _ (List.mem_of_getElem? he)).2⟩
  | negated a ih =>
    rw [Expr.evaluate, astAlg, Option.map_eq_some_iff] at ht
    obtain ⟨u, hu, rfl⟩ := ht
    have := ih he hu
    simpa [Ast.neg, LeavesOk] using this
  | scaled a f ih =>
    rw [Expr.evaluate, astAlg, Option.map_eq_some_iff] at ht
    obtain ⟨u, hu, rfl⟩ := ht
    have := ih he hu
    simpa [Ast.neg, LeavesOk] using this
  | sum a b iha ihb =>
    rw [Expr.evaluate, astAlg, Option.bind_eq_some_iff] at ht
    obtain ⟨u, hu, ht⟩ := ht
    rw [Option.map_eq_some_iff] at ht
    obtain ⟨w, hw, rfl⟩ := ht
    exact ⟨iha he.1 hu, ihb he.2 hw⟩
  | product a b iha ihb =>
    rw [Expr.evaluate, astAlg, Option.bind_eq_some_iff] at ht
    obtain ⟨u, hu, ht⟩ := ht
    rw [Option.map_eq_some_iff] at ht
    obtain ⟨w, hw, rfl⟩ := ht
    exact ⟨iha he.1 hu, ihb he.2 hw⟩

theorem compressCoset_leavesOk {cs : Cs F} {n : ℕ} (h : Ready cs n) {fl al il : List ℕ} {N : ℕ}
    (hf : ∀ i ∈ fl, i < N) (ha : ∀ i ∈ al, i < N) (hi : ∀ i ∈ il, i < N) (theta : F)
    {es : List (Expr F)} (he : ∀ e ∈ es, cs.Covers e) {t : Ast F}
    (ht : Verif.Lookup.compressCosetAst theta fl al il es = some t) : LeavesOk N n t := by
  rw [Verif.Lookup.compressCosetAst, Option.map_eq_some_iff] at ht
  obtain ⟨ts, hts, rfl⟩ := ht
  have hall : ∀ t ∈ ts, LeavesOk N n t := by
    intro t ht
    obtain ⟨e, hm, hev⟩ := forall₂_right (mapM_inv hts) t ht
    exact h.leavesOk hf ha hi (he e hm) hev
  have key : ∀ (ts : List (Ast F)) (acc : Ast F), (∀ t ∈ ts, LeavesOk N n t) →
      LeavesOk N n acc → LeavesOk N n (ts.foldl
        (fun acc t => .add (.mul acc (.constantTerm theta)) t) acc) := by
    intro ts
    induction ts with
    | nil => intro acc _ h; exact h
    | cons t ts ih =>
      intro acc hts hacc
      exact ih _ (fun t ht => hts t (List.mem_cons_of_mem _ ht)) ⟨⟨hacc, trivial⟩, hts t (by simp)⟩
  exact key ts _ hall trivial

theorem compressValues_leavesOk {cs : Cs F} {n : ℕ} (h : Ready cs n) {fl al il : List ℕ} {N : ℕ}
    (hf : ∀ i ∈ fl, i < N) (ha : ∀ i ∈ al, i < N) (hi : ∀ i ∈ il, i < N) (theta : F)
    {es : List (Expr F)} (he : ∀ e ∈ es, cs.Covers e) {t : Ast F}
    (ht : Verif.Lookup.compressValuesAst theta fl al il es = some t) : LeavesOk N n t := by
  rw [Verif.Lookup.compressValuesAst, Option.map_eq_some_iff] at ht
  obtain ⟨ts, hts, rfl⟩ := ht
  have hall : ∀ t ∈ ts, LeavesOk N n t := by
    intro t ht
    obtain ⟨e, hm, hev⟩ := forall₂_right (mapM_inv hts) t ht
    exact h.leavesOk hf ha hi (he e hm) hev
  have key : ∀ (ts : List (Ast F)) (acc : Ast F), (∀ t ∈ ts, LeavesOk N n t) →
      LeavesOk N n acc → LeavesOk N n (ts.foldl (fun acc t => .add (.scale acc theta) t) acc) := by
    intro ts
    induction ts with
    | nil => intro acc _ h; exact h
    | cons t ts ih =>
      intro acc hts hacc
      exact ih _ (fun t ht => hts t (List.mem_cons_of_mem _ ht)) ⟨hacc, hts t (by simp)⟩
  exact key ts _ hall trivial

theorem lookup_leavesOk {N n : ℕ} (hn : 1 ≤ n) {z a s l0 lBlind lLast : ℕ} {input table : Ast F}
    (hz : z < N) (ha : a < N) (hs : s < N) (h0 : l0 < N) (hb : lBlind < N) (hl : lLast < N)
    (hi : LeavesOk N n input) (ht : LeavesOk N n table) (beta gamma : F) :
    ∀ t ∈ Verif.Lookup.construct z a s input table beta gamma l0 lBlind lLast, LeavesOk N n t := by
  intro t hm
  simp only [Verif.Lookup.construct, List.mem_cons, List.not_mem_nil, or_false] at hm
  rcases hm with rfl | rfl | rfl | rfl | rfl <;>
    simp [LeavesOk, Ast.sub, Ast.neg, hz, ha, hs, h0, hb, hl, hi, ht, hn]

theorem leftAst_leavesOk {Col : Type*} {N n : ℕ} (beta gamma : F) (colLeaf : Col → ℕ)
    (l : List (Col × ℕ)) (left : Ast F) (hc : ∀ p ∈ l, colLeaf p.1 < N ∧ p.2 < N)
    (h : LeavesOk N n left) : LeavesOk N n (Verif.Permutation.leftAst beta gamma colLeaf l left) := by
  induction l generalizing left with
  | nil => exact h
  | cons a l ih =>
    rw [Verif.Permutation.leftAst]
    refine ih _ (fun p hp => hc p (List.mem_cons_of_mem _ hp)) ?_
    have := hc a (by simp)
    simp [LeavesOk, h, this.1, this.2]

theorem rightAst_leavesOk {Col : Type*} {N n : ℕ} (delta gamma : F) (colLeaf : Col → ℕ)
    (l : List Col) (cur : F) (right : Ast F) (hc : ∀ p ∈ l, colLeaf p < N)
    (h : LeavesOk N n right) :
    LeavesOk N n (Verif.Permutation.rightAst delta gamma colLeaf l cur right) := by
  induction l generalizing right cur with
  | nil => exact h
  | cons a l ih =>
    rw [Verif.Permutation.rightAst]
    refine ih _ _ (fun p hp => hc p (List.mem_cons_of_mem _ hp)) ?_
    simp [LeavesOk, h, hc a (by simp)]

theorem mem_of_mem_chunks {α : Type*} {L : ℕ} (hL : L ≠ 0) {l c : List α} {x : α}
    (h : c ∈ Verif.Multicore.chunks L l) (hx : x ∈ c) : x ∈ l := by
  obtain ⟨i, hi, rfl⟩ := List.getElem_of_mem h
  rw [Verif.Permutation.chunks_getElem hL] at hx
  exact List.mem_of_mem_drop (List.mem_of_mem_take hx)

theorem permutation_leavesOk {Col : Type*} {N n L bf : ℕ} (hL : L ≠ 0) (hn : 1 ≤ n)
    (hbf : bf + 1 ≤ n) {sets : List ℕ} {columns : List Col} {permLeaves : List ℕ}
    {colLeaf : Col → ℕ} {l0 lBlind lLast : ℕ} (hs : ∀ i ∈ sets, i < N)
    (hc : ∀ c ∈ columns, colLeaf c < N) (hp : ∀ i ∈ permLeaves, i < N) (h0 : l0 < N)
    (hb : lBlind < N) (hl : lLast < N) (beta gamma delta : F) :
    ∀ t ∈ Verif.Permutation.construct L bf sets columns permLeaves colLeaf l0 lBlind lLast beta
      gamma delta, LeavesOk N n t := by
  intro t ht
  rw [Verif.Permutation.construct] at ht
  simp only [List.mem_append, Option.mem_toList, Option.map_eq_some_iff, List.mem_map] at ht
  rcases ht with ((⟨s, h1, rfl⟩ | ⟨s, h1, rfl⟩) | ⟨⟨s, t⟩, h1, rfl⟩) | ⟨⟨⟨s, cols, ps⟩, i⟩, h1, rfl⟩
  · simp [LeavesOk, Ast.sub, Ast.neg, hs s (List.mem_of_mem_head? h1), h0]
  · simp [LeavesOk, Ast.sub, Ast.neg, hs s (List.mem_of_mem_getLast? h1), hl]
  · have := List.of_mem_zip h1
    have h2 := hs s (List.mem_of_mem_drop this.1)
    have h3 := hs t this.2
    simp only [LeavesOk, Ast.sub, Ast.neg]
    refine ⟨⟨⟨h2, by simp⟩, h3, by omega⟩, h0, by simp⟩
  · have hm := List.of_mem_zip (List.mem_of_getElem? ((List.mk_mem_zipIdx_iff_getElem?).1 h1))
    have hm2 := List.of_mem_zip hm.2
    have h2 := hs s hm.1
    simp only [LeavesOk, Ast.sub, Ast.neg]
    refine ⟨⟨leftAst_leavesOk _ _ _ _ _ ?_ ⟨h2, by simpa using hn⟩,
      rightAst_leavesOk _ _ _ _ _ _ ?_ ⟨h2, by simp⟩⟩, trivial, ⟨hl, by simp⟩, hb, by simp⟩
    · intro p hpm
      have := List.of_mem_zip hpm
      exact ⟨hc _ (mem_of_mem_chunks hL hm2.1 this.1), hp _ (mem_of_mem_chunks hL hm2.2 this.2)⟩
    · intro c hcm
      exact hc _ (mem_of_mem_chunks hL hm2.1 hcm)

/-! ## Congruence of the verifier's permutation expressions -/

theorem leftProd_congr {Col : Type*} (beta gamma : F) (f g : Col → F) (l : List (Col × F))
    (h : ∀ p ∈ l, f p.1 = g p.1) (left : F) :
    Verif.Permutation.leftProd beta gamma f l left = Verif.Permutation.leftProd beta gamma g l left
      := by
  induction l generalizing left with
  | nil => rfl
  | cons a l ih =>
    rw [Verif.Permutation.leftProd, Verif.Permutation.leftProd, h a (by simp),
      ih fun p hp => h p (List.mem_cons_of_mem _ hp)]

theorem rightProd_congr {Col : Type*} (delta gamma : F) (f g : Col → F) (l : List Col)
    (h : ∀ p ∈ l, f p = g p) (cur right : F) :
    Verif.Permutation.rightProd delta gamma f l cur right
      = Verif.Permutation.rightProd delta gamma g l cur right := by
  induction l generalizing right cur with
  | nil => rfl
  | cons a l ih =>
    rw [Verif.Permutation.rightProd, Verif.Permutation.rightProd, h a (by simp),
      ih fun p hp => h p (List.mem_cons_of_mem _ hp)]

theorem expressions_congr {Col : Type*} {L : ℕ} (hL : L ≠ 0)
    (sets : List (Verif.Permutation.SetEvals F)) (columns : List Col) (permEvals : List F)
    (f g : Col → F) (h : ∀ c ∈ columns, f c = g c) (l0 lLast lBlind beta gamma x delta : F) :
    Verif.Permutation.expressions L sets columns permEvals f l0 lLast lBlind beta gamma x delta
      = Verif.Permutation.expressions L sets columns permEvals g l0 lLast lBlind beta gamma x delta
      := by
  rw [Verif.Permutation.expressions, Verif.Permutation.expressions]
  congr 1
  funext links
  congr 1
  refine List.map_congr_left ?_
  rintro ⟨⟨s, cols, ps⟩, i⟩ h1
  have hm := List.of_mem_zip (List.mem_of_getElem? ((List.mk_mem_zipIdx_iff_getElem?).1 h1))
  have hm2 := List.of_mem_zip hm.2
  simp only
  rw [leftProd_congr beta gamma f g, rightProd_congr delta gamma f g]
  · intro p hp; exact h p (mem_of_mem_chunks hL hm2.1 hp)
  · intro p hp; exact h p.1 (mem_of_mem_chunks hL hm2.1 (List.of_mem_zip hp).1)

theorem value_congr_cols {nf na ni : ℕ} {e : Expr F} (hc : ColsLt nf na ni e) (hs : e.sels = [])
    {v w : Env F} (hf : ∀ q : Query, q.column < nf → v.fixed q = w.fixed q)
    (ha : ∀ q : Query, q.column < na → v.advice q = w.advice q)
    (hi : ∀ q : Query, q.column < ni → v.inst q = w.inst q) : e.value id v = e.value id w := by
  induction e with
  | constant => rfl
  | selector s => simp [Expr.sels] at hs
  | fixed q => exact hf q hc
  | advice q => exact ha q hc
  | inst q => exact hi q hc
  | negated a ih => simp only [Expr.value]; rw [ih hc hs]
  | scaled a f ih => simp only [Expr.value]; rw [ih hc hs]
  | sum a b iha ihb =>
    simp only [Expr.sels, List.append_eq_nil_iff] at hs
    simp only [Expr.value]; rw [iha hc.1 hs.1, ihb hc.2 hs.2]
  | product a b iha ihb =>
    simp only [Expr.sels, List.append_eq_nil_iff] at hs
    simp only [Expr.value]; rw [iha hc.1 hs.1, ihb hc.2 hs.2]

end Verif.Plonk
