import Verif.Plonk.Stages

/-!
# C46: the verifier checks exactly the prover's constraint
-/

namespace Verif.Plonk

open Verif.Expr Verif.ExprEval
open Verif.Cs (Cs Column Lookup)
open Verif.Domain (Domain evalsOn)
open Verif.Evaluator (Ast denote LeavesOk LeavesOkList)
open Verif.PolyArith (evalPolynomial toPoly)
open Verif.Fft (tab)
open Polynomial (C X)

variable {F : Type*} [Field F] {d : Domain F}

/-- Specification: a circuit's columns have the right shape and satisfy every gate on every row,
every copy constraint and every lookup on the usable rows. -/
structure Sat (d : Domain F) (cs : Cs F) (fv : List (List F))
    (calls : List (Verif.Copy.Call Column)) (w : Circuit F) : Prop where
  adviceLen : w.advice.length = cs.numAdvice
  instLen : w.inst.length = cs.numInstance
  advice : ∀ v ∈ w.advice, v.length = d.n
  inst : ∀ v ∈ w.inst, v.length = d.n
  gates : ∀ j < d.n, ∀ e ∈ cs.gates.flatten, rowVal d.n (cols fv w) j e = 0
  copies : Verif.Permutation.CopiesHold cs.permutation d.n calls (colValues fv w)
  lookups : ∀ l ∈ cs.lookups, ∀ i < d.n - (cs.blindingFactors + 1),
    ∃ j < d.n - (cs.blindingFactors + 1),
      l.input.map (rowVal d.n (cols fv w) i) = l.table.map (rowVal d.n (cols fv w) j)

/-- Specification: the challenges make no denominator of the arguments vanish. -/
structure Nonzero (d : Domain F) (cs : Cs F) (delta : F) (ch : Challenges F) (fv : List (List F))
    (w : Circuit F) : Prop where
  permutation : ∀ c ∈ Verif.Permutation.usable cs.permutation d.n cs.blindingFactors,
    Verif.Permutation.cellVal (colValues fv w) c
      + ch.beta * Verif.Permutation.cellId d.omega delta c + ch.gamma ≠ 0
  lookups : ∀ l ∈ cs.lookups, ∀ i < d.n - (cs.blindingFactors + 1),
    Verif.Lookup.inputVal l d.n ch.theta (cols fv w) i + ch.beta ≠ 0 ∧
    Verif.Lookup.tableVal l d.n ch.theta (cols fv w) i + ch.gamma ≠ 0

theorem keygenPk_spec (hd : d.Valid) {threads : ℕ} (ht : threads ≠ 0) (bf : ℕ) (hbf : bf + 1 < d.n)
    (fv perms : List (List F)) (hf : ∀ v ∈ fv, v.length = d.n) (hp : ∀ v ∈ perms, v.length = d.n) :
    ∃ (pk : Pk F) (fp pp : List (List F)) (p0 pB pL : List F),
      keygenPk threads d bf fv perms = some pk ∧
      (pk.fixedValues = fv ∧ pk.fixedPolys = fp ∧ pk.fixedCosets = fp.map (ev d) ∧
        pk.permutations = perms ∧ pk.permPolys = pp ∧ pk.permCosets = pp.map (ev d) ∧
        pk.l0 = ev d p0 ∧ pk.lBlind = ev d pB ∧ pk.lLast = ev d pL) ∧
      ((∀ p ∈ fp, p.length = d.n) ∧ fp.map (rows d) = fv) ∧
      ((∀ p ∈ pp, p.length = d.n) ∧ pp.map (rows d) = perms) ∧
      (p0.length = d.n ∧ pB.length = d.n ∧ pL.length = d.n) ∧
      Verif.Vanishing.Interpolates d (fun i => if i = 0 then 1 else 0) (toPoly p0) ∧
      Verif.Vanishing.Interpolates d (fun i => if i = d.n - bf - 1 then 1 else 0) (toPoly pL) ∧
      Verif.Vanishing.Interpolates d (fun i => if d.n - bf ≤ i then 1 else 0) (toPoly pB) := by
  obtain ⟨fp, f1, f2, f3, f4⟩ := columns_spec hd threads ht fv hf
  obtain ⟨pp, q1, q2, q3, q4⟩ := columns_spec hd threads ht perms hp
  obtain ⟨l0, lL, lB, i0, iL, iB, k0, kL, kB⟩ :=
    Verif.Vanishing.keygen_l_spec hd threads ht bf (by omega)
  obtain ⟨p0, a0, rfl⟩ := interp_list hd i0
  obtain ⟨pL, aL, rfl⟩ := interp_list hd iL
  obtain ⟨pB, aB, rfl⟩ := interp_list hd iB
  refine ⟨⟨fv, fp, fp.map (ev d), perms, pp, pp.map (ev d), ev d p0, ev d pB, ev d pL⟩, fp, pp, p0,
    pB, pL, ?_, ⟨rfl, rfl, rfl, rfl, rfl, rfl, rfl, rfl, rfl⟩, ⟨f3, f4⟩, ⟨q3, q4⟩, ⟨a0, aB, aL⟩,
    i0, iL, iB⟩
  simp only [keygenPk, f1, f2, q1, q2, k0, kL, kB, Option.bind_some, Option.map_some, ev]

theorem mapS_forall₂ {α β S : Type*} {f : α → S → Option (β × S)} {I : S → Prop}
    {le : S → S → Prop} {R : α → β → S → Prop} (refl : ∀ s, le s s)
    (trans : ∀ a b c, le a b → le b c → le a c)
    (mono : ∀ a b s s', le s s' → R a b s → R a b s') (l : List α)
    (step : ∀ a ∈ l, ∀ s, I s → ∃ b s', f a s = some (b, s') ∧ I s' ∧ le s s' ∧ R a b s')
    (s : S) (hs : I s) :
    ∃ (bs : List β) (s' : S), mapS f l s = some (bs, s') ∧ I s' ∧ le s s' ∧
      List.Forall₂ (fun a b => R a b s') l bs := by
  obtain ⟨z, s', rfl, h2, h3, h4, h5⟩ := mapS_zip refl trans mono l step s hs
  refine ⟨_, s', h2, h3, h4, ?_⟩
  rw [List.forall₂_map_left_iff, List.forall₂_map_right_iff, List.forall₂_same]
  exact h5

theorem forall₂_zip {α β γ : Type*} {R : α → β → Prop} {S : β → γ → Prop} {as : List α}
    {bs : List β} {cs : List γ} (h : List.Forall₂ R as bs) (h' : List.Forall₂ S bs cs) :
    List.Forall₂ (fun a (p : β × γ) => R a p.1 ∧ S p.1 p.2) as (bs.zip cs) := by
  induction h generalizing cs with
  | nil => simp
  | cons h _ ih =>
    cases h' with
    | cons h' hr => exact List.Forall₂.cons ⟨h, h'⟩ (ih hr)

theorem foldl_eval (x y : F) (ps : List (Polynomial F)) (acc : Polynomial F) :
    (ps.foldl (fun acc e => acc * C y + e) acc).eval x
      = (ps.map (Polynomial.eval x)).foldl (fun acc v => acc * y + v) (acc.eval x) := by
  induction ps generalizing acc with
  | nil => rfl
  | cons p ps ih => rw [List.foldl_cons, ih]; simp

theorem leavesOkList {N n : ℕ} {l : List (Ast F)} (h : ∀ t ∈ l, LeavesOk N n t) :
    LeavesOkList N n l := by
  induction l with
  | nil => trivial
  | cons t l ih => exact ⟨h t (by simp), ih fun u hu => h u (by simp [hu])⟩

/-- A stateful map over the columns of several circuits. -/
theorem registerCols {α : Type*} {Q : List F → Prop} (g : α → List (List F)) (l : List α)
    (hg : ∀ a ∈ l, ∀ v ∈ g a, Q v) (ctx : List (List F)) (hctx : ∀ c ∈ ctx, Q c) :
    ∃ (z : List (α × List ℕ)) (ctx' : List (List F)), z.map Prod.fst = l ∧
      mapS (fun a => mapS register (g a)) l ctx = some (z.map Prod.snd, ctx') ∧
      (∀ c ∈ ctx', Q c) ∧ ctx <+: ctx' ∧ ∀ x ∈ z, List.Forall₂ (At ctx') (g x.1) x.2 :=
  mapS_zip (f := fun a => mapS register (g a)) (I := fun c => ∀ p ∈ c, Q p)
    (le := fun a b => a <+: b) (R := fun a is c => List.Forall₂ (At c) (g a) is)
    (fun s => List.prefix_refl s) (fun _ _ _ h h' => h.trans h')
    (fun _ _ _ _ h h' => At.forall₂_mono h' h) l
    (fun a ha c hc => by
      obtain ⟨is, c', h1, h2, h3, h4⟩ := registerAll_spec (Q := Q) (g a) (hg a ha) c hc
      exact ⟨is, c', h1, h2, h3, h4⟩) ctx hctx

set_option maxHeartbeats 400000 in
/-- C46: take any valid domain large enough for the constraint system, a proving key generated
for it, and any number of circuits whose columns satisfy every gate, copy and lookup.  Then the
prover succeeds for every choice of its random values, and for every point `x` outside the
domain the verifier succeeds on the evaluations of the prover's polynomials and its expected
evaluation of the quotient is the evaluation of the recombined quotient pieces. -/
theorem verifier_checks_prover [LinearOrder F] (hd : d.Valid) (threads : ℕ) (ht : threads ≠ 0)
    (cs : Cs F) (hdeg : cs.degree ≤ d.quotientPolyDegree + 1) (hr : Ready cs d.n)
    (hbf : cs.blindingFactors + 1 < d.n) (hn : d.n < 2 ^ 32)
    (hcols : cs.lookups ≠ [] → cs.numFixed + cs.numAdvice + cs.numInstance ≠ 0) (delta : F) (ch : Challenges F)
    (rngA : ℕ → ℕ → F) (rngP : ℕ → ℕ → ℕ → F) (rngZ : ℕ → ℕ → F) (fv : List (List F))
    (hfl : fv.length = cs.numFixed) (hf : ∀ v ∈ fv, v.length = d.n)
    (calls : List (Verif.Copy.Call Column))
    (hrows : ∀ c ∈ calls, c.leftRow < d.n - (cs.blindingFactors + 1) ∧
      c.rightRow < d.n - (cs.blindingFactors + 1))
    (ws : List (Circuit F)) (hsat : ∀ w ∈ ws, Sat d cs fv calls w)
    (hnz : ∀ w ∈ ws, Nonzero d cs delta ch fv w) :
    ∃ pk proofs pieces,
      keygenPk threads d cs.blindingFactors fv (permsOf d cs delta calls) = some pk ∧
      createProof threads d cs delta ch rngA rngP rngZ pk ws = some (proofs, pieces) ∧
      proofs.length = ws.length ∧ pieces.length = d.quotientPolyDegree ∧
      ∀ x : F, x ^ d.n ≠ 1 → ∃ fe es e out,
        queryEvals d x pk.fixedPolys cs.fixedQueries = some fe ∧
        proofs.mapM (circuitEvals d cs x) = some es ∧
        expectedH d cs delta ch x fe (pk.permPolys.map fun p => evalPolynomial p x) es = some e ∧
        Verif.Vanishing.recombine threads d (x ^ d.n) pieces = some out ∧
        evalPolynomial out x = e := by
  have h3 := three_le_degree cs
  obtain ⟨hpl, hpn⟩ := Verif.Permutation.permPolys_length d.omega delta
    (Verif.Permutation.keyMapping cs.permutation d.n calls)
  obtain ⟨pk, fp, pp, p0, pB, pL, hpk, ⟨k1, k2, k3, k4, k5, k6, k7, k8, k9⟩, ⟨fpl, fpr⟩, ⟨ppl, ppr⟩, ⟨p0l, pBl, pLl⟩, i0, iL, iB⟩ :=
    keygenPk_spec hd ht cs.blindingFactors hbf fv (permsOf d cs delta calls) hf hpn
  have hmem : ∀ w ∈ ws, ∀ l ∈ cs.lookups, ∀ i < d.n - (cs.blindingFactors + 1),
      ∃ j < d.n - (cs.blindingFactors + 1),
      Verif.Lookup.inputVal l d.n ch.theta (cols fv w) i
        = Verif.Lookup.tableVal l d.n ch.theta (cols fv w) j := by
    intro w hw l hl i hi
    obtain ⟨j, hj, h⟩ := (hsat w hw).lookups l hl i hi
    exact ⟨j, hj, by rw [Verif.Lookup.inputVal, Verif.Lookup.tableVal, h]⟩
  -- column polynomials
  obtain ⟨IP, hIP⟩ : ∃ IP : Circuit F → List (List F),
      ∀ w, IP w = (toCoeffs threads d w.inst).getD [] := ⟨_, fun _ => rfl⟩
  obtain ⟨AP, hAP⟩ : ∃ AP : Circuit F → List (List F),
      ∀ w, AP w = (toCoeffs threads d w.advice).getD [] := ⟨_, fun _ => rfl⟩
  have hI : ∀ w ∈ ws, toCoeffs threads d w.inst = some (IP w) ∧
      toCosets threads d (IP w) = some ((IP w).map (ev d)) ∧ (∀ p ∈ IP w, p.length = d.n) ∧
      (IP w).map (rows d) = w.inst := by
    intro w hw
    obtain ⟨ps, a1, a2, a3, a4⟩ := columns_spec hd threads ht w.inst (hsat w hw).inst
    have : IP w = ps := by rw [hIP, a1]; rfl
    rw [this]; exact ⟨a1, a2, a3, a4⟩
  have hA : ∀ w ∈ ws, toCoeffs threads d w.advice = some (AP w) ∧
      toCosets threads d (AP w) = some ((AP w).map (ev d)) ∧ (∀ p ∈ AP w, p.length = d.n) ∧
      (AP w).map (rows d) = w.advice := by
    intro w hw
    obtain ⟨ps, a1, a2, a3, a4⟩ := columns_spec hd threads ht w.advice (hsat w hw).advice
    have : AP w = ps := by rw [hAP, a1]; rfl
    rw [this]; exact ⟨a1, a2, a3, a4⟩
  clear hIP hAP
  have hgoodmap : ∀ ps : List (List F), (∀ p ∈ ps, p.length = d.n) →
      ∀ c ∈ ps.map (ev d), Good d c := by
    intro ps h c hc
    obtain ⟨p, hp, rfl⟩ := List.mem_map.1 hc
    exact ⟨p, h p hp, rfl⟩
  -- value evaluator
  obtain ⟨vf, vctx₀, v1, v2, -, v4⟩ := registerAll_spec (Q := VGood d) fv
    (fun v hv => vgood hd (hf v hv)) [] (by simp)
  obtain ⟨z₁, vctx₁, E1, va1, va2, va3, va4⟩ := registerCols (Q := VGood d) Circuit.advice ws
    (fun w hw v hv => vgood hd ((hsat w hw).advice v hv)) vctx₀ v2
  have m1 : ∀ x ∈ z₁, x.1 ∈ ws := fun x hx => E1 ▸ List.mem_map_of_mem hx
  obtain ⟨z₂, vctx, E2, vi1, vi2, vi3, vi4⟩ := registerCols (Q := VGood d)
    (fun x : Circuit F × List ℕ => x.1.inst) z₁
    (fun x hx v hv => vgood hd ((hsat x.1 (m1 x hx)).inst v hv)) vctx₁ va2
  have m2 : ∀ x ∈ z₂, x.1 ∈ z₁ := fun x hx => E2 ▸ List.mem_map_of_mem hx
  -- coset evaluator
  obtain ⟨cf, ctx₀, c1, c2, -, c4⟩ := registerAll_spec (Q := Good d) (fp.map (ev d))
    (hgoodmap fp fpl) [] (by simp)
  obtain ⟨z₃, ctx₁, E3, ca1, ca2, ca3, ca4⟩ := registerCols (Q := Good d)
    (fun x : (Circuit F × List ℕ) × List ℕ => (AP x.1.1).map (ev d)) z₂
    (fun x hx => hgoodmap _ (hA x.1.1 (m1 _ (m2 x hx))).2.2.1) ctx₀ c2
  have m3 : ∀ x ∈ z₃, x.1 ∈ z₂ := fun x hx => E3 ▸ List.mem_map_of_mem hx
  obtain ⟨z₄, ctx₂, E4, ci1, ci2, ci3, ci4⟩ := registerCols (Q := Good d)
    (fun x : ((Circuit F × List ℕ) × List ℕ) × List ℕ => (IP x.1.1.1).map (ev d)) z₃
    (fun x hx => hgoodmap _ (hI x.1.1.1 (m1 _ (m2 _ (m3 x hx)))).2.2.1) ctx₁ ca2
  have m4 : ∀ x ∈ z₄, x.1 ∈ z₃ := fun x hx => E4 ▸ List.mem_map_of_mem hx
  obtain ⟨perm, ctx₃, pm1, pm2, pm3, pm4⟩ := registerAll_spec (Q := Good d) (pp.map (ev d))
    (hgoodmap pp ppl) ctx₂ ci2
  have g4 := good_append pm2 p0l
  have g5 := good_append g4 pBl
  have g6 := good_append g5 pLl
  obtain ⟨ctx₄, hctx₄⟩ : ∃ c, c = ctx₃ ++ [ev d p0] ++ [ev d pB] ++ [ev d pL] := ⟨_, rfl⟩
  rw [← hctx₄] at g6
  have le34 : ctx₃ <+: ctx₄ := by
    rw [hctx₄]
    exact ((List.prefix_append _ _).trans (List.prefix_append _ _)).trans (List.prefix_append _ _)
  have at0 : At ctx₄ (ev d p0) ctx₃.length := by rw [hctx₄]; simp [At]
  have atB : At ctx₄ (ev d pB) (ctx₃ ++ [ev d p0]).length := by rw [hctx₄]; simp [At]
  have atL : At ctx₄ (ev d pL) (ctx₃ ++ [ev d p0] ++ [ev d pB]).length := by
    rw [hctx₄]; simp [At]
  have fpn : fp.length = cs.numFixed := by rw [← hfl, ← fpr, List.length_map]
  have hcfl : cf.length = cs.numFixed := by rw [← c4.length_eq, List.length_map, fpn]
  have hmem4 : ∀ x ∈ z₄, x.1.1.1.1 ∈ ws := fun x hx => m1 _ (m2 _ (m3 _ (m4 x hx)))
  have vf' := At.forall₂_mono (At.forall₂_mono v4 va3) vi3
  have va' : ∀ x ∈ z₄, List.Forall₂ (At vctx) x.1.1.1.1.advice x.1.1.1.2 := fun x hx =>
    At.forall₂_mono (va4 x.1.1.1 (m2 _ (m3 _ (m4 x hx)))) vi3
  have vi' : ∀ x ∈ z₄, List.Forall₂ (At vctx) x.1.1.1.1.inst x.1.1.2 := fun x hx =>
    vi4 x.1.1 (m3 _ (m4 x hx))
  have ca' : ∀ x ∈ z₄, List.Forall₂ (At ctx₂) ((AP x.1.1.1.1).map (ev d)) x.1.2 := fun x hx =>
    At.forall₂_mono (ca4 x.1 (m4 x hx)) ci3
  have apn : ∀ w ∈ ws, (AP w).length = cs.numAdvice ∧ (IP w).length = cs.numInstance := by
    intro w hw
    have e1 := (hA w hw).2.2.2
    have e2 := (hI w hw).2.2.2
    have e3 := hsat w hw
    exact ⟨by rw [← e3.adviceLen, ← e1, List.length_map],
      by rw [← e3.instLen, ← e2, List.length_map]⟩
  -- lookups
  obtain ⟨z₅, ctx₅, E5, pe1, pe2, pe3, pe4⟩ := mapS_zip
    (f := fun (x : (((Circuit F × List ℕ) × List ℕ) × List ℕ) × List ℕ) =>
      mapS (commitPermuted threads d cs.blindingFactors ch.theta rngA vctx vf ⟨x.1.1.1.2, x.1.1.2⟩ cf
        ⟨x.1.2, x.2⟩) cs.lookups)
    (I := fun c => ∀ p ∈ c, Good d p) (le := fun a b => a <+: b)
    (R := fun x ps c => List.Forall₂ (fun l p =>
      PermutedOk d cs ch.theta cf ⟨x.1.2, x.2⟩ fv x.1.1.1.1 l p c) cs.lookups ps)
    (fun s => List.prefix_refl s) (fun _ _ _ h h' => h.trans h')
    (fun _ _ _ _ h h' => h'.imp fun _ _ h' => h'.mono h) z₄
    (by
      intro x hx c hc
      have hw := hmem4 x hx
      have hs := hsat _ hw
      refine mapS_forall₂ (f := commitPermuted threads d cs.blindingFactors ch.theta rngA vctx vf
          ⟨x.1.1.1.2, x.1.1.2⟩ cf ⟨x.1.2, x.2⟩) (I := fun c => ∀ p ∈ c, Good d p)
        (le := fun a b => a <+: b)
        (R := fun l p c => PermutedOk d cs ch.theta cf ⟨x.1.2, x.2⟩ fv x.1.1.1.1 l p c)
        (fun s => List.prefix_refl s) (fun _ _ _ h h' => h.trans h') (fun _ _ _ _ h h' => h'.mono h)
        cs.lookups ?_ c hc
      intro l hl c hc
      have hne : vctx ≠ [] := by
        rintro rfl
        have e0 : ∀ {ps : List (List F)} {is : List ℕ}, List.Forall₂ (At []) ps is →
            ps.length = 0 := by
          intro ps is h
          cases h with
          | nil => rfl
          | cons h _ => simp [At] at h
        have e1 := e0 vf'
        have e2 := e0 (va' x hx)
        have e3 := e0 (vi' x hx)
        have := hcols (List.ne_nil_of_mem hl)
        rw [hfl] at e1
        rw [hs.adviceLen] at e2
        rw [hs.instLen] at e3
        omega
      exact commitPermuted_spec hd ht hr hbf hn hne vi2 vf' hfl (va' x hx) hs.adviceLen (vi' x hx)
        hs.instLen ch.theta hcfl
        (by rw [← (ca' x hx).length_eq, List.length_map, (apn _ hw).1])
        (by rw [← (ci4 x hx).length_eq, List.length_map, (apn _ hw).2]) rngA l hl
        (hmem _ hw l hl) c hc) ctx₄ g6
  have m5 : ∀ x ∈ z₅, x.1 ∈ z₄ := fun x hx => E5 ▸ List.mem_map_of_mem hx
  have hmem5 : ∀ x ∈ z₅, x.1.1.1.1.1 ∈ ws := fun x hx => hmem4 _ (m5 x hx)
  -- permutations
  obtain ⟨z₆, ctx₆, E6, pr1, pr2, pr3, pr4⟩ := mapS_zip
    (f := fun (x : ((((Circuit F × List ℕ) × List ℕ) × List ℕ) × List ℕ) × List (Permuted F)) =>
      commitPermutation threads d cs delta ch.beta ch.gamma rngP pk x.1.1.1.1.1)
    (I := fun c => ∀ p ∈ c, Good d p) (le := fun a b => a <+: b)
    (R := fun x zs c => (∀ z ∈ zs, z.poly.length = d.n ∧ At c (ev d z.poly) z.leaf) ∧
      zs.length = Verif.Permutation.numSets cs.degree cs.permutation ∧
      Verif.Permutation.Satisfied d.omega delta ch.beta ch.gamma d.n cs.blindingFactors
        cs.degree (colValues fv x.1.1.1.1.1) cs.permutation (permsOf d cs delta calls)
        fun k j => ((zs.map fun p => rows d p.poly).getD k []).getD j 0)
    (fun s => List.prefix_refl s) (fun _ _ _ h h' => h.trans h')
    (by
      rintro _ _ _ _ h ⟨h1, h2⟩
      exact ⟨fun z hz => ⟨(h1 z hz).1, (h1 z hz).2.mono h⟩, h2⟩) z₅
    (by
      intro x hx c hc
      have hw := hmem5 x hx
      have hs := hsat _ hw
      exact commitPermutation_spec hd ht hr hbf delta ch.beta ch.gamma rngP pk k1
        (fun k hk => colValues_length hfl hs.adviceLen hs.instLen hf hs.advice hs.inst k
          (hr.perm k hk).1) calls k4 hrows hs.copies (hnz _ hw).permutation c hc) ctx₅ pe2
  have m6 : ∀ x ∈ z₆, x.1 ∈ z₅ := fun x hx => E6 ▸ List.mem_map_of_mem hx
  have hmem6 : ∀ x ∈ z₆, x.1.1.1.1.1.1 ∈ ws := fun x hx => hmem5 _ (m6 x hx)
  -- lookup products
  obtain ⟨z₇, ctx, E7, lp1, lp2, lp3, lp4⟩ := mapS_zip
    (f := fun (x : (((((Circuit F × List ℕ) × List ℕ) × List ℕ) × List ℕ) × List (Permuted F)) ×
        List (Product F)) =>
      mapS (commitProduct threads d cs.blindingFactors ch.beta ch.gamma rngZ) x.1.2)
    (I := fun c => ∀ p ∈ c, Good d p) (le := fun a b => a <+: b)
    (R := fun x zs c => List.Forall₂ (fun p z => z.poly.length = d.n ∧ At c (ev d z.poly) z.leaf ∧
      ∀ l ∈ cs.lookups, PermutedOk d cs ch.theta cf ⟨x.1.1.1.2, x.1.1.2⟩ fv x.1.1.1.1.1.1 l p ctx₅ →
      Verif.Lookup.Satisfied cs l d.n cs.blindingFactors ch.theta ch.beta ch.gamma
        (cols fv x.1.1.1.1.1.1)
        (fun j => (rows d p.aPoly).getD j 0) (fun j => (rows d p.sPoly).getD j 0)
        (fun j => (rows d z.poly).getD j 0)) x.1.2 zs)
    (fun s => List.prefix_refl s) (fun _ _ _ h h' => h.trans h')
    (by
      intro _ _ _ _ h h'
      refine h'.imp ?_
      rintro _ _ ⟨h1, h2, h3⟩
      exact ⟨h1, h2.mono h, h3⟩) z₆
    (by
      intro x hx c hc
      have hw := hmem6 x hx
      have hs := hsat _ hw
      have hperm := pe4 x.1 (m6 x hx)
      refine mapS_forall₂ (f := commitProduct threads d cs.blindingFactors ch.beta ch.gamma rngZ)
        (I := fun c => ∀ p ∈ c, Good d p) (le := fun a b => a <+: b)
        (R := fun p z c => z.poly.length = d.n ∧ At c (ev d z.poly) z.leaf ∧
          ∀ l ∈ cs.lookups, PermutedOk d cs ch.theta cf ⟨x.1.1.1.2, x.1.1.2⟩ fv x.1.1.1.1.1.1 l p
            ctx₅ →
          Verif.Lookup.Satisfied cs l d.n cs.blindingFactors ch.theta ch.beta ch.gamma
            (cols fv x.1.1.1.1.1.1)
            (fun j => (rows d p.aPoly).getD j 0) (fun j => (rows d p.sPoly).getD j 0)
            (fun j => (rows d z.poly).getD j 0))
        (fun s => List.prefix_refl s) (fun _ _ _ h h' => h.trans h')
        (by
          rintro _ _ _ _ h ⟨h1, h2, h3⟩
          exact ⟨h1, h2.mono h, h3⟩) x.1.2 ?_ c hc
      intro p hp c hc
      obtain ⟨l, hl, hpl⟩ := forall₂_right hperm p hp
      have spec := fun l hl hpl => commitProduct_spec (p := p) (ctx₀ := ctx₅) (fv := fv) (cf := cf)
        (c := ⟨x.1.1.1.2, x.1.1.2⟩) (w := x.1.1.1.1.1.1) hd ht hr hbf hn ch.theta ch.beta ch.gamma
        rngZ l hl (hmem _ hw l hl) ((hnz _ hw).lookups l hl) hpl c hc
      obtain ⟨z, c', q1, q2, q3, q4, q5, q6⟩ := spec l hl hpl
      refine ⟨z, c', q1, q2, q3, q4, q5, ?_⟩
      intro l' hl' hpl'
      obtain ⟨z', c'', r1, -, -, -, -, r6⟩ := spec l' hl' hpl'
      rw [q1] at r1
      obtain ⟨rfl, -⟩ := Prod.mk.inj (Option.some.inj r1)
      exact r6) ctx₆ pr2
  have m7 : ∀ x ∈ z₇, x.1 ∈ z₆ := fun x hx => E7 ▸ List.mem_map_of_mem hx
  have hmem7 : ∀ x ∈ z₇, x.1.1.1.1.1.1.1 ∈ ws := fun x hx => hmem6 _ (m7 x hx)
  have le47 : ctx₄ <+: ctx := (pe3.trans pr3).trans lp3
  -- the coefficients behind the leaves
  obtain ⟨pc, pcl, pce, pcat⟩ := exists_coeffs hd ctx lp2
  have hbnd : ∀ {ps : List (List F)} {is : List ℕ} {c : List (List F)}, c <+: ctx →
      (∀ p ∈ ps, p.length = d.n) → List.Forall₂ (At c) (ps.map (ev d)) is → Bnd pc ps is := by
    intro ps is c hc hl h
    rw [List.forall₂_map_left_iff] at h
    have h' := (List.forall₂_and_left _ _).2 ⟨hl, h⟩
    exact h'.imp fun p i hp => pcat p i hp.1 (hp.2.mono hc)
  have hltm : ∀ {p : List F} {i : ℕ} {c : List (List F)}, c <+: ctx → At c p i → i < ctx.length := by
    intro p i c hc h
    exact (List.getElem?_eq_some_iff.1 (h.mono hc)).1
  have hlt : ∀ {ps : List (List F)} {is : List ℕ} {c : List (List F)}, c <+: ctx →
      List.Forall₂ (At c) ps is → ∀ i ∈ is, i < ctx.length := by
    intro ps is c hc h i hi
    obtain ⟨p, -, hat⟩ := forall₂_right h i hi
    exact hltm hc hat
  have le57 : ctx₅ <+: ctx := pr3.trans lp3
  have le37 : ctx₃ <+: ctx := le34.trans le47
  have le27 : ctx₂ <+: ctx := pm3.trans le37
  have le07 : ctx₀ <+: ctx := (ca3.trans ci3).trans le27
  have ppn : pp.length = cs.permutation.length := by
    rw [← List.length_map (f := rows d), ppr]; exact hpl
  have hb : ∀ x ∈ z₇, Bound d cs ch pc ctx.length fp cf pp perm ctx₃.length
      (ctx₃ ++ [ev d p0]).length (ctx₃ ++ [ev d p0] ++ [ev d pB]).length (AP x.1.1.1.1.1.1.1)
      (IP x.1.1.1.1.1.1.1) ⟨x.1.1.1.1.2, x.1.1.1.2⟩ x.1.2 (x.1.1.2.zip x.2) := by
    intro x hx
    have hw := hmem7 x hx
    have hx6 := m7 x hx
    have hx5 := m6 _ hx6
    have hx4 := m5 _ hx5
    have hz := forall₂_zip (pe4 _ hx5) (lp4 x hx)
    refine
      { hF := hbnd le07 fpl c4, fixedLen := fpn,
        hA := hbnd le27 (hA _ hw).2.2.1 (ca' _ hx4), adviceLen := (apn _ hw).1,
        hI := hbnd le27 (hI _ hw).2.2.1 (ci4 _ hx4), instLen := (apn _ hw).2,
        hP := hbnd le37 ppl pm4, permLen := ppn, hZ := ?_, hK := ?_,
        ltF := hlt le07 c4, ltA := hlt le27 (ca' _ hx4), ltI := hlt le27 (ci4 _ hx4),
        ltP := hlt le37 pm4, ltL := ⟨hltm le47 at0, hltm le47 atB, hltm le47 atL⟩, ltZ := ?_,
        ltK := ?_ }
    · intro p hp
      obtain ⟨a1, a2⟩ := (pr4 _ hx6).1 p hp
      exact pcat _ _ a1 (a2.mono lp3)
    · refine hz.imp ?_
      rintro l p ⟨a, b1, b2, -⟩
      exact ⟨a.inputCoset, a.tableCoset, pcat _ _ a.aLen (a.aAt.mono le57),
        pcat _ _ a.sLen (a.sAt.mono le57), pcat _ _ b1 b2⟩
    · intro p hp
      exact hltm lp3 ((pr4 _ hx6).1 p hp).2
    · intro p hp
      obtain ⟨l, -, a, b1, b2, -⟩ := forall₂_right hz p hp
      exact ⟨hltm le57 a.aAt, hltm le57 a.sAt, hltm (List.prefix_refl _) b2⟩
  obtain ⟨E, hE⟩ : ∃ E : (((((((Circuit F × List ℕ) × List ℕ) × List ℕ) × List ℕ) ×
      List (Permuted F)) × List (Product F)) × List (Product F)) → List (Ast F),
      ∀ x, E x = (proverExpressions cs delta ch cf ⟨x.1.1.1.1.2, x.1.1.1.2⟩ perm ctx₃.length
      (ctx₃ ++ [ev d p0]).length (ctx₃ ++ [ev d p0] ++ [ev d pB]).length x.1.2
      (x.1.1.2.zip x.2)).getD [] := ⟨_, fun _ => rfl⟩
  have hEx : ∀ x ∈ z₇, proverExpressions cs delta ch cf ⟨x.1.1.1.1.2, x.1.1.1.2⟩ perm ctx₃.length
      (ctx₃ ++ [ev d p0]).length (ctx₃ ++ [ev d p0] ++ [ev d pB]).length x.1.2
      (x.1.1.2.zip x.2) = some (E x) ∧ ∀ t ∈ E x, LeavesOk ctx.length d.n t := by
    intro x hx
    obtain ⟨as, h2, h3⟩ : ∃ as, proverExpressions cs delta ch cf ⟨x.1.1.1.1.2, x.1.1.1.2⟩ perm
        ctx₃.length (ctx₃ ++ [ev d p0]).length (ctx₃ ++ [ev d p0] ++ [ev d pB]).length x.1.2
        (x.1.1.2.zip x.2) = some as ∧ ∀ t ∈ as, LeavesOk ctx.length d.n t := by
      obtain ⟨gs, -, h2, h3⟩ := prover_some (hb x hx) hr (by omega) (by omega) delta
      exact ⟨_, h2, h3⟩
    have : E x = as := by rw [hE, h2]; rfl
    rw [this]
    exact ⟨h2, h3⟩
  -- lagrange polynomials
  have q0 : pc ctx₃.length = p0 := pcat _ _ p0l (at0.mono le47)
  have qB : pc (ctx₃ ++ [ev d p0]).length = pB := pcat _ _ pBl (atB.mono le47)
  have qL : pc (ctx₃ ++ [ev d p0] ++ [ev d pB]).length = pL := pcat _ _ pLl (atL.mono le47)
  -- every constraint vanishes on the domain
  have hvan : ∀ x ∈ z₇, ∀ a ∈ E x, ∀ j < d.n,
      (denote d.omega (fun i => toPoly (pc i)) a).eval (d.omega ^ j) = 0 := by
    intro x hx
    have hw := hmem7 x hx
    have hx6 := m7 x hx
    have hx5 := m6 _ hx6
    have hz := forall₂_zip (pe4 _ hx5) (lp4 x hx)
    refine vanish hd (hb x hx) hr hbf fpr (hA _ hw).2.2.2 (hI _ hw).2.2.2 ppr delta ?_ ?_ ?_
      (hsat _ hw).gates (pr4 _ hx6).2.1 (pr4 _ hx6).2.2 ?_ (hEx x hx).1
    · intro j hj; rw [q0]; exact i0.row j hj
    · intro j hj; rw [qL, iL.row j hj]; congr 1
    · intro j hj; rw [qB]; exact iB.row j hj
    · have hz' : List.Forall₂ (fun l (p : Permuted F × Product F) => l ∈ cs.lookups ∧ _)
          cs.lookups (x.1.1.2.zip x.2) := (List.forall₂_and_left _ _).2 ⟨fun l hl => hl, hz⟩
      refine hz'.imp ?_
      rintro l p ⟨hl, a, -, -, b⟩
      exact b l hl a
  -- degrees
  have hdegs : ∀ x ∈ z₇, ∀ a ∈ E x,
      (denote d.omega (fun i => toPoly (pc i)) a).natDegree ≤ cs.degree * (d.n - 1) := by
    intro x hx
    refine expressions_degree (m := d.n - 1) ?_ (by omega) cs delta ch cf
      ⟨x.1.1.1.1.2, x.1.1.1.2⟩ ?_ ?_ _ _ _ _ _ _ ?_ (hEx x hx).1
    · intro i
      rw [Polynomial.natDegree_le_iff_degree_le]
      have := toPoly_degree (pcl i)
      rw [Polynomial.degree_le_iff_coeff_zero]
      intro m hm
      apply Polynomial.coeff_eq_zero_of_degree_lt
      refine this.trans_le ?_
      have h' : d.n - 1 < m := by exact_mod_cast hm
      have : d.n ≤ m := by omega
      exact_mod_cast this
    · exact fun e he => ⟨(hr.gates e he).2, (hb x hx).colsLt hr (hr.gates e he).1⟩
    · exact fun l hl => ⟨hr.lookups l hl, fun e he => (hb x hx).colsLt hr (hr.lookups l hl e he).1⟩
    · exact (hb x hx).hK.imp fun _ _ h => ⟨h.1, h.2.1⟩
  -- quotient
  obtain ⟨D, hD⟩ : ∃ D, D = (((z₇.map E).flatten).map
      (denote d.omega (fun i => toPoly (pc i)))).foldl (fun acc e => acc * C ch.y + e) 0 :=
    ⟨_, rfl⟩
  have hvanD : ∀ i < d.n, D.eval (d.omega ^ i) = 0 := by
    intro i hi
    rw [hD, foldl_eval]
    have : ∀ (l : List F) (acc : F), acc = 0 → (∀ v ∈ l, v = 0) →
        l.foldl (fun acc v => acc * ch.y + v) acc = 0 := by
      intro l
      induction l with
      | nil => intro acc h _; exact h
      | cons v l ih =>
        intro acc h hl
        exact ih _ (by rw [h, hl v (by simp)]; simp) fun u hu => hl u (by simp [hu])
    refine this _ _ (by simp) ?_
    intro v hv
    simp only [List.mem_map, List.mem_flatten] at hv
    obtain ⟨q, ⟨a, ⟨l, ⟨x, hx, rfl⟩, ha⟩, rfl⟩, rfl⟩ := hv
    exact hvan x hx a ha i hi
  obtain ⟨qq, hqq⟩ := Verif.Vanishing.vanishing_dvd hd D hvanD
  have hfit := quotient_fits d.n cs.degree (by omega) (by omega) ch.y
    (((z₇.map E).flatten).map (denote d.omega (fun i => toPoly (pc i)))) (by
      intro p hp
      simp only [List.mem_map, List.mem_flatten] at hp
      obtain ⟨a, ⟨l, ⟨x, hx, rfl⟩, ha⟩, rfl⟩ := hp
      exact hdegs x hx a ha) qq (by rw [← hD, hqq, mul_comm])
  have hne : ctx ≠ [] := by
    intro h
    have := hltm le47 at0
    rw [h] at this
    simp at this
  have hlv : LeavesOkList ctx.length d.n (z₇.map E).flatten := by
    refine leavesOkList ?_
    intro t ht'
    simp only [List.mem_map, List.mem_flatten] at ht'
    obtain ⟨l, ⟨x, hx, rfl⟩, ha⟩ := ht'
    exact (hEx x hx).2 t ha
  obtain ⟨pieces, hq, hc1, hc2, hc3, hc4, hc5⟩ := Verif.Vanishing.construct_spec hd threads ht ctx
    hne (fun i => toPoly (pc i)) pce _ ch.y hlv D hD hvanD (by
      rw [hD]
      refine hfit.1.trans_le ?_
      have : d.n * cs.degree ≤ d.n * (d.quotientPolyDegree + 1) := Nat.mul_le_mul_left _ hdeg
      exact_mod_cast this)
  -- the lists of the prover
  have L6 : z₆ = z₇.map fun x => x.1 := E7.symm
  have L5 : z₅ = z₇.map fun x => x.1.1 := by rw [← E6, L6, List.map_map]; rfl
  have L4 : z₄ = z₇.map fun x => x.1.1.1 := by rw [← E5, L5, List.map_map]; rfl
  have L3 : z₃ = z₇.map fun x => x.1.1.1.1 := by rw [← E4, L4, List.map_map]; rfl
  have L2 : z₂ = z₇.map fun x => x.1.1.1.1.1 := by rw [← E3, L3, List.map_map]; rfl
  have L1 : z₁ = z₇.map fun x => x.1.1.1.1.1.1 := by rw [← E2, L2, List.map_map]; rfl
  have Lw : ws = z₇.map fun x => x.1.1.1.1.1.1.1 := by rw [← E1, L1, List.map_map]; rfl
  have s1 : (ws.mapM fun w => toCoeffs threads d w.inst) = some (ws.map IP) :=
    Verif.Evaluator.mapM_eq_some _ fun w hw => (hI w hw).1
  have s2 : ((ws.map IP).mapM fun ps => toCosets threads d ps)
      = some ((ws.map IP).map fun ps => ps.map (ev d)) := by
    refine Verif.Evaluator.mapM_eq_some _ ?_
    intro p hp
    obtain ⟨w, hw, rfl⟩ := List.mem_map.1 hp
    exact (hI w hw).2.1
  have s3 : (ws.mapM fun w => toCoeffs threads d w.advice) = some (ws.map AP) :=
    Verif.Evaluator.mapM_eq_some _ fun w hw => (hA w hw).1
  have s4 : ((ws.map AP).mapM fun ps => toCosets threads d ps)
      = some ((ws.map AP).map fun ps => ps.map (ev d)) := by
    refine Verif.Evaluator.mapM_eq_some _ ?_
    intro p hp
    obtain ⟨w, hw, rfl⟩ := List.mem_map.1 hp
    exact (hA w hw).2.1
  have s5 : mapS (fun w : Circuit F => mapS register w.inst) ws vctx₁
      = some (z₂.map Prod.snd, vctx) := by rw [← vi1, ← E1, mapS_map]
  have s6 : mapS (fun ps => mapS register ps) ((ws.map AP).map fun ps => ps.map (ev d)) ctx₀
      = some (z₃.map Prod.snd, ctx₁) := by
    rw [← ca1, ← E1, ← E2]; simp only [mapS_map]
  have s7 : mapS (fun ps => mapS register ps) ((ws.map IP).map fun ps => ps.map (ev d)) ctx₁
      = some (z₄.map Prod.snd, ctx₂) := by
    rw [← ci1, ← E1, ← E2, ← E3]; simp only [mapS_map]
  have s8 : mapS (fun (q : (List ℕ × List ℕ) × List ℕ × List ℕ) =>
      mapS (commitPermuted threads d cs.blindingFactors ch.theta rngA vctx vf ⟨q.2.1, q.1.1⟩ cf
        ⟨q.2.2, q.1.2⟩) cs.lookups)
      (((z₂.map Prod.snd).zip (z₄.map Prod.snd)).zip ((z₁.map Prod.snd).zip (z₃.map Prod.snd))) ctx₄
      = some (z₅.map Prod.snd, ctx₅) := by
    rw [← pe1, ← E2, ← E3, ← E4]
    simp only [List.map_map, List.zip_map', mapS_map, Function.comp_apply]
  have s9 : mapS (commitPermutation threads d cs delta ch.beta ch.gamma rngP pk) ws ctx₅
      = some (z₆.map Prod.snd, ctx₆) := by
    rw [← pr1, ← E1, ← E2, ← E3, ← E4, ← E5]; simp only [mapS_map]
  have s10 : mapS (fun ps => mapS (commitProduct threads d cs.blindingFactors ch.beta ch.gamma rngZ)
      ps) (z₅.map Prod.snd) ctx₆ = some (z₇.map Prod.snd, ctx) := by
    rw [← lp1, ← E6]; simp only [mapS_map]
  have s11 : ((((z₃.map Prod.snd).zip (z₄.map Prod.snd)).zip
      ((z₆.map Prod.snd).zip ((z₅.map Prod.snd).zip (z₇.map Prod.snd)))).mapM
      fun (q : (List ℕ × List ℕ) × List (Product F) × List (Permuted F) × List (Product F)) =>
      proverExpressions cs delta ch cf ⟨q.1.1, q.1.2⟩ perm ctx₃.length (ctx₃ ++ [ev d p0]).length
        (ctx₃ ++ [ev d p0] ++ [ev d pB]).length q.2.1 (q.2.2.1.zip q.2.2.2)) = some (z₇.map E) := by
    rw [L3, L4, L5, L6]
    simp only [List.map_map, List.zip_map', mapM_map', Function.comp_apply]
    exact Verif.Evaluator.mapM_eq_some _ fun x hx => (hEx x hx).1
  refine ⟨pk, z₇.map fun x => ⟨AP x.1.1.1.1.1.1.1, IP x.1.1.1.1.1.1.1, x.1.2.map (·.poly),
      (x.1.1.2.zip x.2).map fun (p : Permuted F × Product F) => (p.2.poly, p.1.aPoly, p.1.sPoly)⟩,
    pieces, hpk, ?_, by rw [Lw]; simp, hc2, ?_⟩
  · have hr4 : (register (ev d pL) (ctx₃ ++ [ev d p0] ++ [ev d pB]))
        = some ((ctx₃ ++ [ev d p0] ++ [ev d pB]).length, ctx₄) := by rw [hctx₄]; rfl
    rw [createProof]
    rw [k1, k3, k6, k7, k8, k9, s1, Option.bind_some, s2, Option.bind_some, s3, Option.bind_some, s4, Option.bind_some, v1,
      Option.bind_some]
    dsimp only
    rw [va1, Option.bind_some]
    dsimp only
    rw [s5, Option.bind_some]
    dsimp only
    rw [c1, Option.bind_some]
    dsimp only
    rw [s6, Option.bind_some]
    dsimp only
    rw [s7, Option.bind_some]
    dsimp only
    rw [pm1, Option.bind_some]
    dsimp only
    rw [register, Option.bind_some]
    dsimp only
    rw [register, Option.bind_some]
    dsimp only
    rw [hr4, Option.bind_some]
    dsimp only
    rw [s8, Option.bind_some]
    dsimp only
    rw [s9, Option.bind_some]
    dsimp only
    rw [s10, Option.bind_some]
    dsimp only
    rw [s11, Option.bind_some, hc1, Option.map_some]
    have hw1 : ws.map AP = z₇.map fun x => AP x.1.1.1.1.1.1.1 := by rw [Lw, List.map_map]; rfl
    have hw2 : ws.map IP = z₇.map fun x => IP x.1.1.1.1.1.1.1 := by rw [Lw, List.map_map]; rfl
    have hw3 : z₆.map Prod.snd = z₇.map fun x => x.1.2 := by rw [L6, List.map_map]; rfl
    have hw4 : z₅.map Prod.snd = z₇.map fun x => x.1.1.2 := by rw [L5, List.map_map]; rfl
    rw [hw1, hw2, hw3, hw4, List.zip_map', List.zip_map', List.zip_map', List.zip_map', List.map_map]
    rfl
  · intro x hx
    obtain ⟨out, o1, o2⟩ := hc5 x
    have hver := fun y hy => verifier_eq hd (hb y hy) hr delta x (hEx y hy).1
    have hfe := queryEvals_eq hd (hbnd le07 fpl c4) x cs.fixedQueries (fun q hq => by
      rw [fpn]; exact (hr.fixed q hq).1)
    obtain ⟨fe, hfe'⟩ : ∃ fe, queryEvals d x fp cs.fixedQueries = some fe := ⟨_, hfe⟩
    obtain ⟨G, hG⟩ : ∃ G : (((((((Circuit F × List ℕ) × List ℕ) × List ℕ) × List ℕ) ×
        List (Permuted F)) × List (Product F)) × List (Product F)) → CircuitEvals F,
        ∀ y, G y = (circuitEvals d cs x ⟨AP y.1.1.1.1.1.1.1, IP y.1.1.1.1.1.1.1,
          y.1.2.map (·.poly), (y.1.1.2.zip y.2).map
          fun (p : Permuted F × Product F) => (p.2.poly, p.1.aPoly, p.1.sPoly)⟩).getD
          ⟨[], [], [], []⟩ := ⟨_, fun _ => rfl⟩
    have hGx : ∀ y ∈ z₇, circuitEvals d cs x ⟨AP y.1.1.1.1.1.1.1, IP y.1.1.1.1.1.1.1,
          y.1.2.map (·.poly), (y.1.1.2.zip y.2).map
          fun (p : Permuted F × Product F) => (p.2.poly, p.1.aPoly, p.1.sPoly)⟩ = some (G y) ∧
        verifierExpressions cs delta ch x fe (pp.map fun p => evalPolynomial p x)
          ((toPoly p0).eval x, (toPoly pL).eval x, (toPoly pB).eval x) (G y)
          = some ((E y).map fun a => (denote d.omega (fun i => toPoly (pc i)) a).eval x) := by
      intro y hy
      obtain ⟨fe₁, e, f1, f2, f3⟩ := hver y hy
      rw [hfe'] at f1
      obtain rfl := Option.some.inj f1
      rw [q0, qB, qL] at f3
      have : G y = e := by rw [hG, f2]; rfl
      rw [this]
      exact ⟨f2, f3⟩
    have hvl := Verif.Vanishing.verifierL_spec hd cs.blindingFactors hbf x hx _ _ _ i0 iL iB
    have hes : ((z₇.map G).mapM fun e => verifierExpressions cs delta ch x fe
        (pp.map fun p => evalPolynomial p x) ((toPoly p0).eval x, (toPoly pL).eval x,
          (toPoly pB).eval x) e)
        = some (z₇.map fun y => (E y).map fun a =>
          (denote d.omega (fun i => toPoly (pc i)) a).eval x) := by
      rw [mapM_map']
      exact Verif.Evaluator.mapM_eq_some _ fun y hy => (hGx y hy).2
    obtain ⟨eh1, eh2⟩ := Verif.Vanishing.expectedHEval_spec (z₇.map fun y => (E y).map fun a =>
          (denote d.omega (fun i => toPoly (pc i)) a).eval x).flatten ch.y (x ^ d.n)
    rcases heh : Verif.Vanishing.expectedHEval (z₇.map fun y => (E y).map fun a =>
          (denote d.omega (fun i => toPoly (pc i)) a).eval x).flatten ch.y (x ^ d.n) with _ | e
    · exact absurd (eh1.2 heh) hx
    · refine ⟨fe, z₇.map G, e, out, by rw [k2]; exact hfe', ?_, ?_, o1, ?_⟩
      · rw [mapM_map']
        exact Verif.Evaluator.mapM_eq_some _ fun y hy => (hGx y hy).1
      · rw [k5, expectedH, hvl, Option.bind_some, hes, Option.bind_some, heh]
      · have h1 := eh2 e heh
        have hxn : x ^ d.n - 1 ≠ 0 := sub_ne_zero.2 hx
        rw [Verif.PolyArith.evalPolynomial_eq, o2]
        apply mul_right_cancel₀ hxn
        rw [h1]
        have h2 : (hq * (X ^ d.n - 1)).eval x = D.eval x := by rw [hc4]
        rw [Polynomial.eval_mul, Polynomial.eval_sub, Polynomial.eval_pow, Polynomial.eval_X,
          Polynomial.eval_one] at h2
        rw [h2, hD, foldl_eval, Polynomial.eval_zero, List.map_map]
        congr 1
        rw [List.map_flatten, List.map_map]
        rfl

/-! ## A concrete circuit: one advice column of bits, looked up in a fixed column, with a copy -/

section Example

open Verif.Domain (Consts new)

instance : Fact (Nat.Prime 97) := ⟨by norm_num⟩

instance : LinearOrder (ZMod 97) := inferInstanceAs (LinearOrder (Fin 97))

/-- Order 32 root of unity 28 and cube root of unity 35 modulo 97. -/
def consts97 : Consts (ZMod 97) := ⟨5, 28, 35⟩

theorem consts97_valid : consts97.Valid where
  root := IsPrimitiveRoot.mk_of_lt _ (by decide) (by decide +kernel)
    (by intro l h1 h2; change l < 32 at h2; interval_cases l <;> decide +kernel)
  zeta := IsPrimitiveRoot.mk_of_lt _ (by decide) (by decide +kernel)
    (by intro l h1 h2; interval_cases l <;> decide +kernel)

def exAdvice : Expr (ZMod 97) := .advice ⟨0, 0, 0⟩

/-- Gate `a·a - a`, lookup of `a` in the fixed column, permutation over the advice column. -/
def exCs : Cs (ZMod 97) :=
  { numFixed := 1, numAdvice := 1
    gates := [[.sum (.product exAdvice exAdvice) (.negated exAdvice)]]
    adviceQueries := [(0, 0)], numAdviceQueries := [1], fixedQueries := [(0, 0)]
    permutation := [⟨.advice, 0⟩], lookups := [⟨[exAdvice], [.fixed ⟨0, 0, 0⟩]⟩] }

def exFixed : List (List (ZMod 97)) := [[0, 1, 2, 3, 4, 5, 6, 7]]

def exCircuit : Circuit (ZMod 97) := ⟨[[1, 1, 0, 1, 0, 0, 1, 0]], []⟩

def exCalls : List (Verif.Copy.Call Column) := [⟨⟨.advice, 0⟩, 0, ⟨.advice, 0⟩, 1⟩]

def exCh : Challenges (ZMod 97) := ⟨2, 3, 4, 7⟩

theorem exReady : Ready exCs 8 := by
  constructor <;> simp [exCs, exAdvice, Cs.Covers, Expr.sels, Verif.Lookup.Ok, colOk]

theorem ex_bf : exCs.blindingFactors = 5 := by decide

theorem ex_degree : exCs.degree = 4 := by decide

theorem exSat {d : Domain (ZMod 97)} (hn : d.n = 8) : Sat d exCs exFixed exCalls exCircuit := by
  refine ⟨rfl, rfl, ?_, ?_, ?_, ?_, ?_⟩
  · rw [hn]; decide
  · rw [hn]; decide
  · rw [hn]; decide +kernel
  · rw [hn]; exact (Verif.Permutation.copiesHold_iff (bf := 1) (by decide) _).2 (by decide +kernel)
  · rw [hn, ex_bf]; decide +kernel

theorem exNonzero {d : Domain (ZMod 97)} (hn : d.n = 8) (hw : d.omega = 64) :
    Nonzero d exCs 5 exCh exFixed exCircuit := by
  constructor
  · rw [hn, ex_bf, hw]; decide +kernel
  · rw [hn, ex_bf]; decide +kernel

/-- The hypotheses of `verifier_checks_prover` are met by two copies of this circuit. -/
example (rngA : ℕ → ℕ → ZMod 97) (rngP : ℕ → ℕ → ℕ → ZMod 97) (rngZ : ℕ → ℕ → ZMod 97) :
    ∃ d pk proofs pieces, new consts97 4 3 = some d ∧
      keygenPk 2 d 5 exFixed (permsOf d exCs 5 exCalls) = some pk ∧
      createProof 2 d exCs 5 exCh rngA rngP rngZ pk [exCircuit, exCircuit]
        = some (proofs, pieces) ∧ proofs.length = 2 ∧ pieces.length = 3 := by
  obtain ⟨h1, h2⟩ := Verif.Domain.new_spec consts97 consts97_valid 4 3
  obtain ⟨d, hd⟩ := h2.2 (by decide)
  obtain ⟨hv, hk, hq, _, -⟩ := h1 d hd
  have hn : d.n = 8 := by rw [hv.n_eq, hk]; rfl
  have hw : d.omega = 64 := by
    have : (new consts97 4 3).map (·.omega) = some 64 := by decide +kernel
    rw [hd] at this
    exact Option.some.inj this
  have hq' : d.quotientPolyDegree = 3 := by omega
  obtain ⟨pk, proofs, pieces, a1, a2, a3, a4, -⟩ := verifier_checks_prover hv 2 (by decide) exCs
    (by rw [ex_degree, hq']) (hn ▸ exReady) (by rw [ex_bf, hn]; decide) (by rw [hn]; decide)
    (by decide) 5 exCh rngA rngP rngZ exFixed rfl (by rw [hn]; decide) exCalls
    (by rw [hn, ex_bf]; decide) [exCircuit, exCircuit] (by simpa using exSat hn)
    (by simpa using exNonzero hn hw)
  exact ⟨d, pk, proofs, pieces, hd, by rw [ex_bf] at a1; exact a1, a2, a3, by rw [a4, hq']⟩

/-- The bound of `expressions_degree` on this circuit: the gate, the permutation and the lookup
constraints over columns of degree at most 7 have degree at most 28. -/
example (P : ℕ → Polynomial (ZMod 97)) (hP : ∀ i, (P i).natDegree ≤ 7) :
    ∃ asts, proverExpressions exCs 5 exCh [0] ⟨[1], []⟩ [2] 3 4 5 [⟨[], 6⟩]
        [(⟨[], .add (.mul (.constantTerm 0) (.constantTerm 2)) (.poly 1 0), [], [], 7, [],
          .add (.mul (.constantTerm 0) (.constantTerm 2)) (.poly 0 0), [], [], 8⟩, ⟨[], 9⟩)]
        = some asts ∧ asts.length = 9 ∧ ∀ a ∈ asts, (denote (64 : ZMod 97) P a).natDegree ≤ 28 := by
  refine ⟨_, rfl, by decide +kernel, ?_⟩
  have := expressions_degree (omega := (64 : ZMod 97)) hP (by norm_num) exCs 5 exCh [0] ⟨[1], []⟩
    (by simp [exCs, exAdvice, Expr.sels, ColsLt])
    (by simp [exCs, exAdvice, Expr.sels, ColsLt, Verif.Lookup.Ok, Cs.Covers]) [2] 3 4 5 [⟨[], 6⟩]
    [(⟨[], .add (.mul (.constantTerm 0) (.constantTerm 2)) (.poly 1 0), [], [], 7, [],
          .add (.mul (.constantTerm 0) (.constantTerm 2)) (.poly 0 0), [], [], 8⟩, ⟨[], 9⟩)]
    (List.Forall₂.cons ⟨rfl, rfl⟩ List.Forall₂.nil) rfl
  rw [ex_degree] at this
  exact this

end Example

end Verif.Plonk
