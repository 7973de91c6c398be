import Verif.Plonk.Core

/-!
# The stages of the prover on satisfying assignments
-/

namespace Verif.Plonk

open Verif.Expr Verif.ExprEval
open Verif.Cs (Cs Column Lookup)
open Verif.Domain (Domain evalsOn)
open Verif.Evaluator (Ast denote LeavesOk LeavesOkList)
open Verif.PolyArith (evalPolynomial toPoly)
open Verif.Fft (tab)
open Polynomial (C X)

variable {F : Type*} [Field F] {d : Domain F}

/-- Every polynomial of the value evaluator comes from `n` coefficients. -/
def VGood (d : Domain F) (c : List F) : Prop := ∃ p : List F, p.length = d.n ∧ c = rows d p

theorem vgood (hd : d.Valid) {v : List F} (hv : v.length = d.n) : VGood d v := by
  obtain ⟨p, -, h1, h2⟩ := toCoeffs_spec hd 1 one_ne_zero v hv
  exact ⟨p, h1, h2.symm⟩

theorem rows_length (p : List F) : (rows d p).length = d.n := by simp [rows, evalsOn]

/-- Compressing a list of expressions over the rows of a circuit. -/
theorem compress_values (hd : d.Valid) {threads : ℕ} (ht : threads ≠ 0) {cs : Cs F}
    (hr : Ready cs d.n) {vctx : List (List F)} (hne : vctx ≠ []) (hv : ∀ c ∈ vctx, VGood d c)
    {fv : List (List F)} {vf : List ℕ} {w : Circuit F} {v : Leaves}
    (hf : List.Forall₂ (At vctx) fv vf) (hfl : fv.length = cs.numFixed)
    (ha : List.Forall₂ (At vctx) w.advice v.advice) (hal : w.advice.length = cs.numAdvice)
    (hi : List.Forall₂ (At vctx) w.inst v.inst) (hil : w.inst.length = cs.numInstance) (theta : F)
    (es : List (Expr F)) (hes : ∀ e ∈ es, cs.Covers e ∧ e.sels = []) :
    ∃ t, Verif.Lookup.compressValuesAst theta vf v.advice v.inst es = some t ∧
      Verif.Evaluator.evaluate threads .lagrange d d.gCoset vctx t = some (tab d.n fun j =>
        Verif.Lookup.compressSpec theta (es.map (rowVal d.n (cols fv w) j))) := by
  have key : ∀ i : ℕ, ∃ p : List F, ∀ c : List F, vctx[i]? = some c → c = rows d p := by
    intro i
    rcases hc : vctx[i]? with _ | c
    · exact ⟨[], by simp⟩
    · obtain ⟨p, -, hpc⟩ := hv c (List.mem_of_getElem? hc)
      exact ⟨p, by rintro c' h; rw [← Option.some.inj h]; exact hpc⟩
  choose pv hpv using key
  have hlt : ∀ {ps : List (List F)} {is : List ℕ}, List.Forall₂ (At vctx) ps is →
      ∀ i ∈ is, i < vctx.length := by
    intro ps is h i him
    obtain ⟨p, -, hat⟩ := forall₂_right h i him
    exact (List.getElem?_eq_some_iff.1 hat).1
  have hcols : ∀ e ∈ es, ColsLt vf.length v.advice.length v.inst.length e ∧ e.sels = [] := by
    intro e he
    rw [← hf.length_eq, ← ha.length_eq, ← hi.length_eq, hfl, hal, hil]
    exact ⟨hr.colsLt (hes e he).1, (hes e he).2⟩
  obtain ⟨tv, tc, h1, -, h3, h4⟩ := Verif.Lookup.compressAst_eval (omega := d.omega)
    (P := fun i => toPoly (pv i)) theta vf v.advice v.inst es hcols
  refine ⟨tv, h1, ?_⟩
  rw [Verif.Evaluator.evaluate_lagrange hd threads ht d.gCoset vctx hne (fun i => toPoly (pv i))
    hpv tv (compressValues_leavesOk hr (hlt hf) (hlt ha) (hlt hi) theta
      (fun e he => (hes e he).1) h1), h3]
  congr 1
  rw [evalsOn]
  refine List.map_congr_left fun j hj => ?_
  rw [one_mul, h4]
  congr 1
  refine List.map_congr_left fun e he => ?_
  have hcl : ∀ {ps : List (List F)} {is : List ℕ}, List.Forall₂ (At vctx) ps is →
      ∀ (k : ℕ) (r : ℤ), k < ps.length →
      (toPoly (pv (is.getD k 0))).eval (d.omega ^ r * d.omega ^ j)
        = (ps.getD k []).getD (rotRow d.n j r) 0 := by
    intro ps is h k r hk
    rw [eval_row hd, ← hpv _ _ (forall₂_getD h k hk [] 0)]
  exact value_congr_cols (hr.colsLt (hes e he).1) (hes e he).2
    (fun q hq => hcl hf _ _ (by rw [hfl]; exact hq))
    (fun q hq => hcl ha _ _ (by rw [hal]; exact hq))
    (fun q hq => hcl hi _ _ (by rw [hil]; exact hq))

/-- What holds of a permuted lookup. -/
structure PermutedOk (d : Domain F) [LinearOrder F] (cs : Cs F) (theta : F) (cf : List ℕ)
    (c : Leaves) (fv : List (List F)) (w : Circuit F) (l : Lookup F) (p : Permuted F)
    (ctx : List (List F)) : Prop where
  input : p.input = tab d.n (Verif.Lookup.inputVal l d.n theta (cols fv w))
  table : p.table = tab d.n (Verif.Lookup.tableVal l d.n theta (cols fv w))
  inputCoset : Verif.Lookup.compressCosetAst theta cf c.advice c.inst l.input = some p.inputCoset
  tableCoset : Verif.Lookup.compressCosetAst theta cf c.advice c.inst l.table = some p.tableCoset
  permuted : ∃ randA randS, Verif.LookupPerm.permuteExpressionPair d.n cs.blindingFactors randA randS
    p.input p.table = .ok (p.a, p.s)
  aLen : p.aPoly.length = d.n
  sLen : p.sPoly.length = d.n
  aRows : rows d p.aPoly = p.a
  sRows : rows d p.sPoly = p.s
  aAt : At ctx (ev d p.aPoly) p.aLeaf
  sAt : At ctx (ev d p.sPoly) p.sLeaf

theorem good_append {ctx : List (List F)} (h : ∀ c ∈ ctx, Good d c) {p : List F}
    (hp : p.length = d.n) : ∀ c ∈ ctx ++ [ev d p], Good d c := by
  intro c hc
  rcases List.mem_append.1 hc with hc | hc
  · exact h c hc
  · rw [List.mem_singleton.1 hc]; exact ⟨p, hp, rfl⟩

theorem commitPermuted_spec [LinearOrder F] (hd : d.Valid) {threads : ℕ} (ht : threads ≠ 0)
    {cs : Cs F} (hr : Ready cs d.n) (hbf : cs.blindingFactors + 1 < d.n) (hn : d.n < 2 ^ 32)
    {vctx : List (List F)}
    (hne : vctx ≠ []) (hv : ∀ c ∈ vctx, VGood d c)
    {fv : List (List F)} {vf : List ℕ} {w : Circuit F} {v : Leaves}
    (hf : List.Forall₂ (At vctx) fv vf) (hfl : fv.length = cs.numFixed)
    (ha : List.Forall₂ (At vctx) w.advice v.advice) (hal : w.advice.length = cs.numAdvice)
    (hi : List.Forall₂ (At vctx) w.inst v.inst) (hil : w.inst.length = cs.numInstance) (theta : F)
    {cf : List ℕ} {c : Leaves} (hcf : cf.length = cs.numFixed)
    (hca : c.advice.length = cs.numAdvice) (hci : c.inst.length = cs.numInstance)
    (rng : ℕ → ℕ → F) (l : Lookup F) (hl : l ∈ cs.lookups)
    (hmem : ∀ i < d.n - (cs.blindingFactors + 1), ∃ j < d.n - (cs.blindingFactors + 1),
      Verif.Lookup.inputVal l d.n theta (cols fv w) i
        = Verif.Lookup.tableVal l d.n theta (cols fv w) j)
    (ctx : List (List F)) (hctx : ∀ c ∈ ctx, Good d c) :
    ∃ p ctx', commitPermuted threads d cs.blindingFactors theta rng vctx vf v cf c l ctx
        = some (p, ctx') ∧ (∀ c ∈ ctx', Good d c) ∧ ctx <+: ctx' ∧
      PermutedOk d cs theta cf c fv w l p ctx' := by
  have hok := hr.lookups l hl
  obtain ⟨ti, i1, i2⟩ := compress_values hd ht hr hne hv hf hfl ha hal hi hil theta l.input
    (fun e he => hok e (by simp [he]))
  obtain ⟨tt, t1, t2⟩ := compress_values hd ht hr hne hv hf hfl ha hal hi hil theta l.table
    (fun e he => hok e (by simp [he]))
  have hcols : ∀ e ∈ l.input ++ l.table, ColsLt cf.length c.advice.length c.inst.length e := by
    intro e he
    rw [hcf, hca, hci]
    exact hr.colsLt (hok e he).1
  obtain ⟨-, ci, -, ci1, -⟩ := Verif.Lookup.compressAst_eval (omega := d.omega) (P := fun _ => 0)
    theta cf c.advice c.inst l.input
    (fun e he => ⟨hcols e (by simp [he]), (hok e (by simp [he])).2⟩)
  obtain ⟨-, ct, -, ct1, -⟩ := Verif.Lookup.compressAst_eval (omega := d.omega) (P := fun _ => 0)
    theta cf c.advice c.inst l.table
    (fun e he => ⟨hcols e (by simp [he]), (hok e (by simp [he])).2⟩)
  change _ = some (tab d.n (Verif.Lookup.inputVal l d.n theta (cols fv w))) at i2
  change _ = some (tab d.n (Verif.Lookup.tableVal l d.n theta (cols fv w))) at t2
  set input := tab d.n (Verif.Lookup.inputVal l d.n theta (cols fv w)) with hin
  set table := tab d.n (Verif.Lookup.tableVal l d.n theta (cols fv w)) with htab
  have hsub : ∀ a ∈ input.take (d.n - (cs.blindingFactors + 1)),
      a ∈ table.take (d.n - (cs.blindingFactors + 1)) := by
    intro a ha
    obtain ⟨i, hi, rfl⟩ := List.mem_take_iff_getElem.1 ha
    rw [lt_min_iff] at hi
    obtain ⟨j, hj, hij⟩ := hmem i hi.1
    refine List.mem_take_iff_getElem.2 ⟨j, ?_, ?_⟩
    · rw [lt_min_iff]; refine ⟨hj, ?_⟩; rw [htab, Verif.Fft.length_tab]; omega
    · simp only [hin, htab, tab, List.getElem_map, List.getElem_range]; exact hij.symm
  obtain ⟨a, s, p1, p2, p3⟩ : ∃ a s, Verif.LookupPerm.permuteExpressionPair d.n cs.blindingFactors
      (rng ctx.length) (fun i => rng ctx.length (cs.blindingFactors + 1 + i)) input table
        = .ok (a, s) ∧ a.length = d.n ∧ s.length = d.n := by
    rcases Verif.LookupPerm.permute_spec d.n cs.blindingFactors (by omega) (by omega)
      (rng ctx.length) (fun i => rng ctx.length (cs.blindingFactors + 1 + i)) input table
      (by rw [hin, Verif.Fft.length_tab]) (by rw [htab, Verif.Fft.length_tab]) with
      ⟨-, a, s, h1, h2, h3, -⟩ | ⟨⟨x, hx, hx'⟩, -⟩
    · exact ⟨a, s, h1, h2, h3⟩
    · exact absurd (hsub x hx) hx'
  obtain ⟨pa, a1, a2, a3⟩ := toCoeffs_spec hd threads ht a p2
  obtain ⟨ps, s1, s2, s3⟩ := toCoeffs_spec hd threads ht s p3
  refine ⟨⟨input, ci, a, pa, ctx.length, table, ct, s, ps, (ctx ++ [ev d pa]).length⟩,
    ctx ++ [ev d pa] ++ [ev d ps], ?_, good_append (good_append hctx a2) s2,
    (List.prefix_append _ _).trans (List.prefix_append _ _), ?_⟩
  · simp only [commitPermuted, i1, ci1, i2, t1, ct1, t2, p1, Option.bind_some, a1, s1,
      coset_spec hd threads ht _ a2, coset_spec hd threads ht _ s2, register, Option.map_some,
      Except.toOption]
  · exact ⟨rfl, rfl, ci1, ct1, ⟨_, _, p1⟩, a2, s2, a3, s3, by simp [At], by simp [At]⟩

theorem PermutedOk.mono [LinearOrder F] {cs : Cs F} {theta : F} {cf : List ℕ} {c : Leaves}
    {fv : List (List F)} {w : Circuit F} {l : Lookup F} {p : Permuted F} {ctx ctx' : List (List F)}
    (h : PermutedOk d cs theta cf c fv w l p ctx) (hle : ctx <+: ctx') :
    PermutedOk d cs theta cf c fv w l p ctx' :=
  { h with aAt := h.aAt.mono hle, sAt := h.sAt.mono hle }

theorem commitRows_spec (hd : d.Valid) {threads : ℕ} (ht : threads ≠ 0) (z : List F)
    (hz : z.length = d.n) (ctx : List (List F)) (hctx : ∀ c ∈ ctx, Good d c) :
    ∃ p ctx', commitRows threads d z ctx = some (p, ctx') ∧ (∀ c ∈ ctx', Good d c) ∧
      ctx <+: ctx' ∧ p.poly.length = d.n ∧ rows d p.poly = z ∧ At ctx' (ev d p.poly) p.leaf := by
  obtain ⟨pa, a1, a2, a3⟩ := toCoeffs_spec hd threads ht z hz
  refine ⟨⟨pa, ctx.length⟩, ctx ++ [ev d pa], ?_, good_append hctx a2, List.prefix_append _ _, a2,
    a3, by simp [At]⟩
  simp only [commitRows, a1, Option.bind_some, coset_spec hd threads ht _ a2, register,
    Option.map_some]

theorem commitProduct_spec [LinearOrder F] (hd : d.Valid) {threads : ℕ} (ht : threads ≠ 0)
    {cs : Cs F} (hr : Ready cs d.n) (hbf : cs.blindingFactors + 1 < d.n) (hn : d.n < 2 ^ 32)
    {fv : List (List F)} {w : Circuit F} (theta beta gamma : F) {cf : List ℕ} {c : Leaves}
    (rng : ℕ → ℕ → F) (l : Lookup F) (hl : l ∈ cs.lookups)
    (hmem : ∀ i < d.n - (cs.blindingFactors + 1), ∃ j < d.n - (cs.blindingFactors + 1),
      Verif.Lookup.inputVal l d.n theta (cols fv w) i
        = Verif.Lookup.tableVal l d.n theta (cols fv w) j)
    (hden : ∀ i < d.n - (cs.blindingFactors + 1),
      Verif.Lookup.inputVal l d.n theta (cols fv w) i + beta ≠ 0 ∧
      Verif.Lookup.tableVal l d.n theta (cols fv w) i + gamma ≠ 0) {p : Permuted F}
    {ctx₀ : List (List F)} (hp : PermutedOk d cs theta cf c fv w l p ctx₀)
    (ctx : List (List F)) (hctx : ∀ c ∈ ctx, Good d c) :
    ∃ z ctx', commitProduct threads d cs.blindingFactors beta gamma rng p ctx = some (z, ctx') ∧
      (∀ c ∈ ctx', Good d c) ∧ ctx <+: ctx' ∧ z.poly.length = d.n ∧
      At ctx' (ev d z.poly) z.leaf ∧
      Verif.Lookup.Satisfied cs l d.n cs.blindingFactors theta beta gamma (cols fv w)
        (fun j => (rows d p.aPoly).getD j 0) (fun j => (rows d p.sPoly).getD j 0)
        (fun j => (rows d z.poly).getD j 0) := by
  obtain ⟨rA, rS, hperm⟩ := hp.permuted
  obtain ⟨a, s, z, h1, h2, h3, h4⟩ := Verif.Lookup.commit_satisfies cs l (hr.lookups l hl) threads
    ht d.n cs.blindingFactors (by omega) hn hbf theta beta gamma (cols fv w) rA rS (rng ctx.length)
    hmem hden
  rw [← hp.input, ← hp.table, hperm] at h1
  obtain ⟨rfl, rfl⟩ := Prod.mk.inj (Except.ok.inj h1)
  rw [← hp.input, ← hp.table] at h2
  obtain ⟨q, ctx', q1, q2, q3, q4, q5, q6⟩ := commitRows_spec hd ht z h3 ctx hctx
  refine ⟨q, ctx', ?_, q2, q3, q4, q6, ?_⟩
  · rw [commitProduct, h2, Option.bind_some, q1]
  · rw [hp.aRows, hp.sRows, q5]; exact h4

theorem colValues_length {cs : Cs F} {fv : List (List F)} {w : Circuit F}
    (hfl : fv.length = cs.numFixed) (hal : w.advice.length = cs.numAdvice)
    (hil : w.inst.length = cs.numInstance) (hf : ∀ v ∈ fv, v.length = d.n)
    (ha : ∀ v ∈ w.advice, v.length = d.n) (hi : ∀ v ∈ w.inst, v.length = d.n) (c : Column)
    (hc : colOk cs c = true) : (colValues fv w c).length = d.n := by
  have key : ∀ (l : List (List F)) (i : ℕ), i < l.length → (∀ v ∈ l, v.length = d.n) →
      (l.getD i []).length = d.n := by
    intro l i hi h
    rw [List.getD_eq_getElem _ _ hi]
    exact h _ (List.getElem_mem hi)
  rcases c with ⟨_ | _ | _, i⟩ <;> simp only [colOk, decide_eq_true_eq] at hc <;>
    simp only [colValues]
  · exact key _ _ (by rw [hal]; exact hc) ha
  · exact key _ _ (by rw [hfl]; exact hc) hf
  · exact key _ _ (by rw [hil]; exact hc) hi

/-- The permutation polynomials of a constraint system and the copies asked for. -/
def permsOf (d : Domain F) (cs : Cs F) (delta : F) (calls : List (Verif.Copy.Call Column)) :
    List (List F) :=
  Verif.Permutation.permPolys d.omega delta
    (Verif.Permutation.keyMapping cs.permutation d.n calls)

theorem commitPermutation_spec (hd : d.Valid) {threads : ℕ} (ht : threads ≠ 0)
    {cs : Cs F} (hr : Ready cs d.n) (hbf : cs.blindingFactors + 1 < d.n)
    {w : Circuit F} (delta beta gamma : F) (rng : ℕ → ℕ → ℕ → F) (pk : Pk F) {fv : List (List F)}
    (hfv : pk.fixedValues = fv)
    (hval : ∀ c ∈ cs.permutation, (colValues fv w c).length = d.n)
    (calls : List (Verif.Copy.Call Column)) (hpk : pk.permutations = permsOf d cs delta calls)
    (hrows : ∀ c ∈ calls, c.leftRow < d.n - (cs.blindingFactors + 1) ∧
      c.rightRow < d.n - (cs.blindingFactors + 1))
    (hcopies : Verif.Permutation.CopiesHold cs.permutation d.n calls (colValues fv w))
    (hden : ∀ c ∈ Verif.Permutation.usable cs.permutation d.n cs.blindingFactors,
      Verif.Permutation.cellVal (colValues fv w) c
        + beta * Verif.Permutation.cellId d.omega delta c + gamma ≠ 0)
    (ctx : List (List F)) (hctx : ∀ c ∈ ctx, Good d c) :
    ∃ zs ctx', commitPermutation threads d cs delta beta gamma rng pk w ctx = some (zs, ctx') ∧
      (∀ c ∈ ctx', Good d c) ∧ ctx <+: ctx' ∧
      (∀ z ∈ zs, z.poly.length = d.n ∧ At ctx' (ev d z.poly) z.leaf) ∧
      zs.length = Verif.Permutation.numSets cs.degree cs.permutation ∧
      Verif.Permutation.Satisfied d.omega delta beta gamma d.n cs.blindingFactors
        cs.degree (colValues fv w) cs.permutation (permsOf d cs delta calls)
        fun k j => ((zs.map fun p => rows d p.poly).getD k []).getD j 0 := by
  subst hfv
  obtain ⟨zs, h1, h2, h3, h4⟩ := Verif.Permutation.commit_satisfies threads ht d.omega delta beta
    gamma d.n cs.blindingFactors cs.degree (three_le_degree cs) (by omega) (rng ctx.length)
    (colValues pk.fixedValues w) cs.permutation hval calls hrows hcopies hden
  obtain ⟨z, ctx', z1, z2, z3, z4, z5⟩ := mapS_zip (f := commitRows threads d)
    (I := fun c => ∀ p ∈ c, Good d p) (le := fun a b => a <+: b)
    (R := fun v p c => p.poly.length = d.n ∧ rows d p.poly = v ∧ At c (ev d p.poly) p.leaf)
    (fun s => List.prefix_refl s) (fun _ _ _ h h' => h.trans h')
    (fun _ _ _ _ h h' => ⟨h'.1, h'.2.1, h'.2.2.mono h⟩) zs
    (fun v hv c hc => by
      obtain ⟨q, ctx', q1, q2, q3, q4, q5, q6⟩ := commitRows_spec hd ht v (h3 v hv) c hc
      exact ⟨q, ctx', q1, q2, q3, q4, q5, q6⟩) ctx hctx
  have hall : cs.permutation.all (colOk cs) = true :=
    List.all_eq_true.2 fun c hc => (hr.perm c hc).1
  refine ⟨z.map Prod.snd, ctx', ?_, z3, z4, ?_, ?_, ?_⟩
  · rw [commitPermutation, if_pos hall, hpk, permsOf, h1, Option.bind_some, z2]
  · intro p hp
    obtain ⟨x, hx, rfl⟩ := List.mem_map.1 hp
    exact ⟨(z5 x hx).1, (z5 x hx).2.2⟩
  · rw [← h2, ← z1]; simp
  · have hzs : ((z.map Prod.snd).map fun p => rows d p.poly) = zs := by
      rw [← z1, List.map_map]
      exact List.map_congr_left fun x hx => (z5 x hx).2.1
    rw [hzs]
    exact h4

theorem interp_list (hd : d.Valid) {v : ℕ → F} {q : Polynomial F}
    (h : Verif.Vanishing.Interpolates d v q) : ∃ p : List F, p.length = d.n ∧ toPoly p = q := by
  obtain ⟨p, hp, -, out, -, h2, h3⟩ := Verif.Vanishing.lagrange_to_extended hd 1 one_ne_zero v
  exact ⟨out, h3, h2.trans (hp.unique hd h)⟩

end Verif.Plonk
