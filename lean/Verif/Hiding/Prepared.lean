import Verif.Hiding.Steps

/-!
# The evaluator contexts of satisfying columns (C77)
-/

namespace Verif.Hiding

open Verif.Cs (Cs Column Lookup)
open Verif.Domain (Domain)
open Verif.PolyArith (evalPolynomial)
open Verif.Plonk (Pk Circuit Leaves Permuted Product Challenges CircuitProof CircuitEvals mapS
  register rows Good VGood At ev PermutedOk permsOf colValues Sat Nonzero Ready cols)
open Verif.Msm Verif.Transcript Verif.Multicore
open Verif.Multiopen (Query Commitment commitOf)
open Verif.Ipa (ParamsOk)
open Verif.Protocol

section Lists

variable {F : Type} [Field F]

theorem registerAll_len {l ctx : List (List F)} {r : List ℕ × List (List F)}
    (h : mapS register l ctx = some r) : r.2.length = ctx.length + l.length := by
  induction l generalizing ctx r with
  | nil => cases h; rfl
  | cons a l ih =>
    unfold mapS at h
    obtain ⟨⟨b, s⟩, h1, h⟩ := Option.bind_eq_some_iff.1 h
    cases h1
    obtain ⟨⟨bs, s'⟩, h2, h⟩ := Option.map_eq_some_iff.1 h
    cases h
    have := ih h2
    simp only [List.length_append, List.length_cons, List.length_nil] at this ⊢
    omega

theorem registerCols_len {α : Type} {g : α → List (List F)} {m : ℕ} {l : List α}
    (hg : ∀ a ∈ l, (g a).length = m) {ctx : List (List F)} {r : List (List ℕ) × List (List F)}
    (h : mapS (fun a => mapS register (g a)) l ctx = some r) :
    r.2.length = ctx.length + l.length * m := by
  induction l generalizing ctx r with
  | nil => cases h; simp
  | cons a l ih =>
    unfold mapS at h
    obtain ⟨⟨b, s⟩, h1, h⟩ := Option.bind_eq_some_iff.1 h
    obtain ⟨⟨bs, s'⟩, h2, h⟩ := Option.map_eq_some_iff.1 h
    cases h
    have h1 := registerAll_len h1
    have h2 := ih (fun a ha => hg a (by simp [ha])) h2
    have h3 := hg a (by simp)
    simp only [List.length_cons, Nat.add_mul, one_mul] at h1 h2 ⊢
    omega

theorem registerCols_forall₂ {α : Type} {Q : List F → Prop} (g : α → List (List F)) (l : List α)
    (hg : ∀ a ∈ l, ∀ v ∈ g a, Q v) (ctx : List (List F)) (hctx : ∀ c ∈ ctx, Q c) :
    ∃ (is : List (List ℕ)) (ctx' : List (List F)),
      mapS (fun a => mapS register (g a)) l ctx = some (is, ctx') ∧
      (∀ c ∈ ctx', Q c) ∧ ctx <+: ctx' ∧
      List.Forall₂ (fun a is => List.Forall₂ (At ctx') (g a) is) l is := by
  obtain ⟨z, ctx', h1, h2, h3, h4, h5⟩ := Verif.Plonk.registerCols g l hg ctx hctx
  refine ⟨_, ctx', h2, h3, h4, ?_⟩
  rw [← h1, List.forall₂_map_left_iff, List.forall₂_map_right_iff, List.forall₂_same]
  exact h5

theorem forall₂_both {α β γ : Type*} {R : α → β → Prop} {S : α → γ → Prop} {as : List α}
    {bs : List β} {cs : List γ} (h : List.Forall₂ R as bs) (h' : List.Forall₂ S as cs) :
    List.Forall₂ (fun a (p : β × γ) => R a p.1 ∧ S a p.2) as (bs.zip cs) := by
  induction h generalizing cs with
  | nil => simp
  | cons h _ ih =>
    cases h' with
    | cons h' hr => exact List.Forall₂.cons ⟨h, h'⟩ (ih hr)

end Lists

variable {F K A : Type} [Field F] [LinearOrder F] [AddCommGroup A] [Module F A] [Field K]
  {threads : ℕ} {pr : Params A} {d : Domain F}

/-- What is known of the result of `prepare`. -/
structure Prepared (d : Domain F) (cs : Cs F) (fv : List (List F)) (ws : List (Circuit F))
    (P : Prep F) : Prop where
  vgood : ∀ c ∈ P.vctx, VGood d c
  nonempty : cs.lookups ≠ [] → ws ≠ [] → P.vctx ≠ []
  vf : List.Forall₂ (At P.vctx) fv P.vf
  cfLen : P.cf.length = cs.numFixed
  good : ∀ c ∈ P.ctx, Good d c
  cols : List.Forall₂ (fun (w : Circuit F) (q : (List ℕ × List ℕ) × List ℕ × List ℕ) =>
      List.Forall₂ (At P.vctx) w.advice q.2.1 ∧ List.Forall₂ (At P.vctx) w.inst q.1.1 ∧
      q.2.2.length = cs.numAdvice ∧ q.1.2.length = cs.numInstance) ws
    ((P.vi.zip P.ci).zip (P.va.zip P.ca))
  ctxLen : P.ctx.length = cs.numFixed + ws.length * cs.numAdvice + ws.length * cs.numInstance
    + cs.permutation.length + 3

omit [LinearOrder F] in
theorem good_register {p : List F} {ctx : List (List F)} (hc : ∀ c ∈ ctx, Good d c) (h : Good d p) :
    ∀ c ∈ ctx ++ [p], Good d c := by
  intro c hc'
  rcases List.mem_append.1 hc' with h' | h'
  · exact hc c h'
  · rw [List.mem_singleton.1 h']; exact h

set_option maxHeartbeats 400000 in
theorem prepared (hs : Setup threads pr d) (ht : threads ≠ 0) {cs : Cs F}
    (hbf : cs.blindingFactors + 1 < d.n)
    (hcols : cs.lookups ≠ [] → cs.numFixed + cs.numAdvice + cs.numInstance ≠ 0) {delta : F}
    {fv : List (List F)}
    (hfl : fv.length = cs.numFixed) (hf : ∀ v ∈ fv, v.length = d.n)
    {calls : List (Verif.Copy.Call Column)} {pk : Pk F}
    (hpk : Verif.Plonk.keygenPk threads d cs.blindingFactors fv (permsOf d cs delta calls) = some pk)
    {ws : List (Circuit F)} (hsat : ∀ w ∈ ws, Sat d cs fv calls w) :
    ∃ P, prepare threads d pk ws = some P ∧ Prepared d cs fv ws P := by
  have hd := hs.domain
  obtain ⟨hpl, hpn⟩ := Verif.Permutation.permPolys_length d.omega delta
    (Verif.Permutation.keyMapping cs.permutation d.n calls)
  obtain ⟨pk', fp, pp, p0, pB, pL, hpk', ⟨k1, k2, k3, k4, k5, k6, k7, k8, k9⟩, ⟨fpl, fpr⟩, ⟨ppl, ppr⟩,
    ⟨p0l, pBl, pLl⟩, -, -, -⟩ :=
    Verif.Plonk.keygenPk_spec hd ht cs.blindingFactors hbf fv (permsOf d cs delta calls) hf hpn
  cases hpk.symm.trans hpk'
  have hcoset : ∀ vs : List (List F), (∀ v ∈ vs, v.length = d.n) →
      Verif.Plonk.toCosets threads d (vs.map (coeffs threads d))
        = some ((vs.map (coeffs threads d)).map (ev d)) := by
    intro vs hv
    obtain ⟨ps, a1, a2, -, -⟩ := Verif.Plonk.columns_spec hd threads ht vs hv
    rw [toCoeffs_eq hs ht vs hv] at a1
    cases a1
    exact a2
  have hgoodmap : ∀ ps : List (List F), (∀ p ∈ ps, p.length = d.n) →
      ∀ c ∈ ps.map (ev d), Good d c := by
    intro ps h c hc
    obtain ⟨p, hp, rfl⟩ := List.mem_map.1 hc
    exact ⟨p, h p hp, rfl⟩
  have hcl : ∀ vs : List (List F), (∀ v ∈ vs, v.length = d.n) →
      ∀ p ∈ vs.map (coeffs threads d), p.length = d.n := by
    intro vs hv p hp
    obtain ⟨v, hv', rfl⟩ := List.mem_map.1 hp
    exact (coeffs_spec hs ht v (hv v hv')).2
  -- value evaluator
  obtain ⟨vf, vctx₀, v1, v2, -, v4⟩ := Verif.Plonk.registerAll_spec (Q := VGood d) fv
    (fun v hv => Verif.Plonk.vgood hd (hf v hv)) [] (by simp)
  obtain ⟨va, vctx₁, va1, va2, va3, va4⟩ := registerCols_forall₂ (Q := VGood d) Circuit.advice ws
    (fun w hw v hv => Verif.Plonk.vgood hd ((hsat w hw).advice v hv)) vctx₀ v2
  obtain ⟨vi, vctx, vi1, vi2, vi3, vi4⟩ := registerCols_forall₂ (Q := VGood d) Circuit.inst ws
    (fun w hw v hv => Verif.Plonk.vgood hd ((hsat w hw).inst v hv)) vctx₁ va2
  -- coset evaluator
  obtain ⟨cf, ctx₀, c1, c2, -, c4⟩ := Verif.Plonk.registerAll_spec (Q := Good d) (fp.map (ev d))
    (hgoodmap fp fpl) [] (by simp)
  obtain ⟨ca, ctx₁, ca1, ca2, ca3, ca4⟩ := registerCols_forall₂ (Q := Good d)
    (fun w : Circuit F => (w.advice.map (coeffs threads d)).map (ev d)) ws
    (fun w hw => hgoodmap _ (hcl _ (hsat w hw).advice)) ctx₀ c2
  obtain ⟨ci, ctx₂, ci1, ci2, ci3, ci4⟩ := registerCols_forall₂ (Q := Good d)
    (fun w : Circuit F => (w.inst.map (coeffs threads d)).map (ev d)) ws
    (fun w hw => hgoodmap _ (hcl _ (hsat w hw).inst)) ctx₁ ca2
  obtain ⟨perm, ctx₃, pm1, pm2, pm3, pm4⟩ := Verif.Plonk.registerAll_spec (Q := Good d)
    (pp.map (ev d)) (hgoodmap pp ppl) ctx₂ ci2
  have fpn : fp.length = cs.numFixed := by rw [← hfl, ← fpr, List.length_map]
  have ppn : pp.length = cs.permutation.length := by
    rw [← List.length_map (f := rows d), ppr]; exact hpl
  refine ⟨{ instPolys := ws.map fun w => w.inst.map (coeffs threads d)
            advicePolys := ws.map fun w => w.advice.map (coeffs threads d)
            vf, va, vi, vctx, cf, ca, ci, perm, l0 := ctx₃.length, lBlind := (ctx₃ ++ [pk.l0]).length
            lLast := (ctx₃ ++ [pk.l0] ++ [pk.lBlind]).length
            ctx := ctx₃ ++ [pk.l0] ++ [pk.lBlind] ++ [pk.lLast] }, ?_, ?_⟩
  · unfold prepare
    rw [mapM_some ws (fun w => w.inst.map (coeffs threads d))
      (fun w hw => toCoeffs_eq hs ht _ (hsat w hw).inst), Option.bind_some,
      mapM_some _ (fun ps => ps.map (ev d)) (fun ps hps => by
        obtain ⟨w, hw, rfl⟩ := List.mem_map.1 hps
        exact hcoset _ (hsat w hw).inst), Option.bind_some,
      mapM_some ws (fun w => w.advice.map (coeffs threads d))
      (fun w hw => toCoeffs_eq hs ht _ (hsat w hw).advice), Option.bind_some,
      mapM_some _ (fun ps => ps.map (ev d)) (fun ps hps => by
        obtain ⟨w, hw, rfl⟩ := List.mem_map.1 hps
        exact hcoset _ (hsat w hw).advice), Option.bind_some, k1, k3, k6, v1, Option.bind_some]
    dsimp only
    rw [va1, Option.bind_some]
    dsimp only
    rw [vi1, Option.bind_some]
    dsimp only
    rw [c1, Option.bind_some]
    dsimp only
    rw [List.map_map, mapS_map]
    erw [ca1]
    rw [Option.bind_some]
    dsimp only
    rw [List.map_map, mapS_map]
    erw [ci1]
    rw [Option.bind_some]
    dsimp only
    rw [pm1]
    rfl
  · have vf' := Verif.Plonk.At.forall₂_mono (Verif.Plonk.At.forall₂_mono v4 va3) vi3
    have hadv : List.Forall₂ (fun (w : Circuit F) is => List.Forall₂ (At vctx) w.advice is) ws va :=
      va4.imp fun _ _ h => Verif.Plonk.At.forall₂_mono h vi3
    have e0 : ∀ {ps : List (List F)} {is : List ℕ}, List.Forall₂ (At []) ps is →
        ps.length = 0 := by
      intro ps is h
      cases h with
      | nil => rfl
      | cons h _ => simp [At] at h
    refine { vgood := vi2, nonempty := ?_, vf := vf', cfLen := ?_, good := ?_, cols := ?_, ctxLen := ?_ }
    · intro hl hw h0
      have h0' : vctx = [] := h0
      rw [h0'] at vf' hadv vi4
      have := hcols hl
      have e1 := e0 vf'
      cases ws with
      | nil => exact hw rfl
      | cons w ws =>
        have hsw := hsat w (by simp)
        cases hadv with
        | cons q1 _ =>
          cases vi4 with
          | cons q2 _ =>
            have e2 := e0 q1
            have e3 := e0 q2
            rw [hfl] at e1
            rw [hsw.adviceLen] at e2
            rw [hsw.instLen] at e3
            omega
    · show cf.length = _
      rw [← c4.length_eq, List.length_map, fpn]
    · show ∀ c ∈ ctx₃ ++ [pk.l0] ++ [pk.lBlind] ++ [pk.lLast], Good d c
      refine good_register (good_register (good_register pm2 ?_) ?_) ?_
      · rw [k7]; exact ⟨p0, p0l, rfl⟩
      · rw [k8]; exact ⟨pB, pBl, rfl⟩
      · rw [k9]; exact ⟨pL, pLl, rfl⟩
    · have hall := (List.forall₂_and_left (p := fun w => Sat d cs fv calls w) _ _).2
        ⟨hsat, forall₂_both (forall₂_both vi4 ci4) (forall₂_both hadv ca4)⟩
      refine hall.imp ?_
      rintro w q ⟨hsw, ⟨a1, a2⟩, a3, a4⟩
      refine ⟨a3, a1, ?_, ?_⟩
      · rw [← a4.length_eq, List.length_map, List.length_map, hsw.adviceLen]
      · rw [← a2.length_eq, List.length_map, List.length_map, hsw.instLen]
    · have l1 := registerAll_len c1
      have l2 := registerCols_len (m := cs.numAdvice) (fun w hw => by
        rw [List.length_map, List.length_map, (hsat w hw).adviceLen]) ca1
      have l3 := registerCols_len (m := cs.numInstance) (fun w hw => by
        rw [List.length_map, List.length_map, (hsat w hw).instLen]) ci1
      have l4 := registerAll_len pm1
      simp only [List.length_append, List.length_map, List.length_nil, List.length_cons] at l1 l2 l3 l4 ⊢
      omega

end Verif.Hiding
