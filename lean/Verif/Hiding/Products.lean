import Verif.Hiding.Prepared

/-!
# Steering the products stage (C77)
-/

namespace Verif.Hiding

open Verif.Cs (Cs Column Lookup)
open Verif.Domain (Domain)
open Verif.PolyArith (evalPolynomial)
open Verif.Plonk (Pk Circuit Leaves Permuted Product Challenges CircuitProof CircuitEvals mapS
  register rows Good VGood At ev PermutedOk permsOf colValues Sat Nonzero Ready cols)
open Verif.Msm Verif.Transcript Verif.Multicore
open Verif.Multiopen (Query Commitment commitOf)
open Verif.Ipa (ParamsOk)
open Verif.Protocol

variable {F K A : Type} [Field F] [LinearOrder F] [AddCommGroup A] [Module F A] [Field K]
  {threads : ℕ} {pr : Params A} {d : Domain F}

theorem mapS_mem {S α β : Type*} {f : α → S → Option (β × S)} {l : List α} {s : S}
    {r : List β × S} (h : mapS f l s = some r) : ∀ a ∈ l, ∃ s₁ r', f a s₁ = some r' := by
  induction l generalizing s r with
  | nil => simp
  | cons a l ih =>
    unfold mapS at h
    obtain ⟨⟨b, s'⟩, h1, h⟩ := Option.bind_eq_some_iff.1 h
    obtain ⟨⟨bs, s''⟩, h2, h⟩ := Option.map_eq_some_iff.1 h
    intro a' ha'
    rcases List.mem_cons.1 ha' with rfl | ha'
    · exact ⟨_, _, h1⟩
    · exact ih h2 a' ha'

theorem forall₂_length {α β : Type*} {P : β → Prop} {l : List α} {m : List β}
    (h : l.length = m.length) (hP : ∀ b ∈ m, P b) : List.Forall₂ (fun _ b => P b) l m := by
  rw [List.forall₂_iff_get]
  exact ⟨h, fun i _ h2 => hP _ (List.get_mem _ _)⟩

/-- Permuted columns that cannot be told apart. -/
def PermutedAlike (pr : Params A) (S : Finset F) (y₁ y₂ : Permuted F × F × F) : Prop :=
  Alike pr S (y₁.1.aPoly, y₁.2.1) (y₂.1.aPoly, y₂.2.1) ∧
    Alike pr S (y₁.1.sPoly, y₁.2.2) (y₂.1.sPoly, y₂.2.2)

/-- Product columns that cannot be told apart. -/
def ProductAlike (pr : Params A) (S : Finset F) (y₁ y₂ : Product F × F) : Prop :=
  Alike pr S (y₁.1.poly, y₁.2) (y₂.1.poly, y₂.2)

set_option maxHeartbeats 400000 in
theorem products_steer (hs : Setup threads pr d) (ht : threads ≠ 0)
    (hw : ∀ a : A, ∃ r : F, r • pr.w = a) {e : Enc F K A} {S : Finset F} {cs : Cs F}
    (hr : Ready cs d.n) (hbf : cs.blindingFactors + 1 < d.n) (hn : d.n < 2 ^ 32)
    (hS : S.card ≤ cs.blindingFactors) (hx : ∀ s ∈ S, s ^ d.n ≠ 1) {delta : F}
    {fv : List (List F)} (hfl : fv.length = cs.numFixed) (hf : ∀ v ∈ fv, v.length = d.n)
    {calls : List (Verif.Copy.Call Column)}
    (hrows : ∀ c ∈ calls, c.leftRow < d.n - (cs.blindingFactors + 1) ∧
      c.rightRow < d.n - (cs.blindingFactors + 1))
    {pk : Pk F} (hpf : pk.fixedValues = fv) (hpp : pk.permutations = permsOf d cs delta calls)
    {ws₁ ws₂ : List (Circuit F)} (hsat : ∀ w ∈ ws₂, Sat d cs fv calls w)
    {theta beta gamma y : F} (hnz : ∀ w ∈ ws₂, Nonzero d cs delta ⟨theta, beta, gamma, y⟩ fv w)
    (hwl : ws₁.length = ws₂.length)
    {P₁ P₂ : Prep F} (hP₁ : Prepared d cs fv ws₁ P₁) (hP₂ : Prepared d cs fv ws₂ P₂)
    {rng₁ : Rng F} {st st' : WState F} {pm₁ : List (List (Permuted F × F × F))}
    {pd₁ lp₁ : List (List (Product F × F))} {ctx₁ : List (List F)}
    (h : proverProducts threads e pr d cs delta rng₁ pk ws₁ P₁ st
      = .ok ((theta, beta, gamma, pm₁, pd₁, lp₁, ctx₁), st')) :
    ∃ permuted permutedBlind permutation productBlind lookup pm₂ pd₂ lp₂ ctx₂,
      List.Forall₂ (List.Forall₂ (PermutedAlike pr S)) pm₁ pm₂ ∧
      List.Forall₂ (List.Forall₂ (ProductAlike pr S)) pd₁ pd₂ ∧
      List.Forall₂ (List.Forall₂ (ProductAlike pr S)) lp₁ lp₂ ∧
      ∀ rng₀ : Rng F, proverProducts threads e pr d cs delta
        { rng₀ with permuted, permutedBlind, permutation, productBlind, lookup } pk ws₂ P₂ st
          = .ok ((theta, beta, gamma, pm₂, pd₂, lp₂, ctx₂), st') := by
  have hd := hs.domain
  obtain ⟨hpl, hpn⟩ := Verif.Permutation.permPolys_length d.omega delta
    (Verif.Permutation.keyMapping cs.permutation d.n calls)
  have hmem : ∀ w ∈ ws₂, ∀ l ∈ cs.lookups, ∀ i < d.n - (cs.blindingFactors + 1),
      ∃ j < d.n - (cs.blindingFactors + 1),
      Verif.Lookup.inputVal l d.n theta (cols fv w) i
        = Verif.Lookup.tableVal l d.n theta (cols fv w) j := by
    intro w hw l hl i hi
    obtain ⟨j, hj, h⟩ := (hsat w hw).lookups l hl i hi
    exact ⟨j, hj, by rw [Verif.Lookup.inputVal, Verif.Lookup.tableVal, h]⟩
  unfold proverProducts at h
  obtain ⟨th, s1, h1, h⟩ := bind_ok h
  obtain ⟨⟨pm, c1⟩, s2, h2, h⟩ := bind_ok h
  obtain ⟨be, s3, h3, h⟩ := bind_ok h
  obtain ⟨ga, s4, h4, h⟩ := bind_ok h
  obtain ⟨⟨pd, c2⟩, s5, h5, h⟩ := bind_ok h
  obtain ⟨⟨lp, c3⟩, s6, h6, h⟩ := bind_ok h
  obtain ⟨⟨e1, e2, e3, e4, e5, e6, e7⟩, e8⟩ : (th = theta ∧ be = beta ∧ ga = gamma ∧ pm = pm₁ ∧
      pd = pd₁ ∧ lp = lp₁ ∧ c3 = ctx₁) ∧ s6 = st' := by
    simpa [pure, StateT.pure, Except.pure] using h
  subst e1 e2 e3 e4 e5 e6 e7 e8
  -- permuted columns
  have hl0 : ((P₁.vi.zip P₁.ci).zip (P₁.va.zip P₁.ca)).length
      = ((P₂.vi.zip P₂.ci).zip (P₂.va.zip P₂.ca)).length := by
    rw [← hP₁.cols.length_eq, ← hP₂.cols.length_eq, hwl]
  have hz2 : ∀ q ∈ (P₂.vi.zip P₂.ci).zip (P₂.va.zip P₂.ca), ∃ w ∈ ws₂,
      List.Forall₂ (At P₂.vctx) w.advice q.2.1 ∧ List.Forall₂ (At P₂.vctx) w.inst q.1.1 ∧
      q.2.2.length = cs.numAdvice ∧ q.1.2.length = cs.numInstance := by
    intro q hq
    exact Verif.Plonk.forall₂_right hP₂.cols q hq
  have hctx : P₁.ctx.length = P₂.ctx.length := by rw [hP₁.ctxLen, hP₂.ctxLen, hwl]
  obtain ⟨r₁, pm₂, d1, g1, g2, g3, g4, g5⟩ := mapSW_steers (d := d)
    (f₂ := fun (r : ℕ → (ℕ → F) × F × F) (q : (List ℕ × List ℕ) × List ℕ × List ℕ) =>
      mapSW (commitPermutedW threads e pr d cs.blindingFactors th
        { rng₁ with permuted := fun i => (r i).1, permutedBlind := fun i => (r i).2 } P₂
        ⟨q.2.1, q.1.1⟩ ⟨q.2.2, q.1.2⟩) cs.lookups)
    (Pre := fun _ q => q ∈ (P₂.vi.zip P₂.ci).zip (P₂.va.zip P₂.ca))
    (R := fun ys₁ ys₂ => List.Forall₂ (fun y₁ y₂ => Alike pr S (y₁.1.aPoly, y₁.2.1)
        (y₂.1.aPoly, y₂.2.1) ∧ Alike pr S (y₁.1.sPoly, y₁.2.2) (y₂.1.sPoly, y₂.2.2) ∧
      ∃ w ∈ ws₂, ∃ l ∈ cs.lookups, ∃ c ctx, PermutedOk d cs th P₂.cf c fv w l y₂.1 ctx) ys₁ ys₂)
    (by
      intro q₁ q₂ hq ctx₁ ctx₂ st st' ys₁ ctx₁' hlen hg hrun
      obtain ⟨w, hww, a1, a2, a3, a4⟩ := hz2 q₂ hq
      have hsw := hsat w hww
      refine mapSW_steers (d := d) (Pre := fun _ l => l ∈ cs.lookups) ?_
        (forall₂_length rfl fun l hl => hl) hlen hg hrun
      intro l₁ l₂ hl ctx₁ ctx₂ st st' y₁ ctx₁' hlen hg hrun
      obtain ⟨r₀, y₂, ctx', b1, b2, b3, ⟨b4, b5, b6⟩, b7⟩ := permuted_steers (rng₀ := rng₁)
        (v := ⟨q₂.2.1, q₂.1.1⟩) (c := ⟨q₂.2.2, q₂.1.2⟩) (l := l₂) (fv := fv) (w := w) (P₂ := P₂)
        hs ht hw (Nat.le_succ_of_le hS) hx
        (fun rng ctx hctx => Verif.Plonk.commitPermuted_spec hd ht hr hbf hn
          (hP₂.nonempty (List.ne_nil_of_mem hl) (List.ne_nil_of_mem hww)) hP₂.vgood hP₂.vf hfl
          a1 hsw.adviceLen a2 hsw.instLen th hP₂.cfLen a3 a4 rng l₂ hl (hmem w hww l₂ hl) ctx hctx)
        hlen hg hrun
      obtain ⟨cc, b6⟩ := b6
      exact ⟨r₀, y₂, ctx', b1, b2, b3, ⟨b4, b5, w, hww, l₂, hl, _, cc, b6⟩, b7⟩)
    (forall₂_length hl0 fun q hq => hq) hctx hP₂.good h2
  -- permutation products
  obtain ⟨r₂, pd₂, d2, g6, g7, g8, g9, g10⟩ := mapSW_steers (d := d)
    (f₂ := fun (r : ℕ → (ℕ → ℕ → F) × F) => commitPermutationW threads e pr d cs delta be ga
        { rng₁ with permutation := fun i => (r i).1, productBlind := fun i => (r i).2 } pk)
    (Pre := fun _ w => w ∈ ws₂)
    (R := fun ys₁ ys₂ => List.Forall₂ (fun y₁ y₂ =>
        Alike pr S (y₁.1.poly, y₁.2) (y₂.1.poly, y₂.2)) ys₁ ys₂)
    (by
      intro w₁ w₂ hww ctx₁ ctx₂ st st' ys₁ ctx₁' hlen hg hrun
      have hsw := hsat w₂ hww
      refine permutation_steers hs ht hw hS hx (by rw [hpp]; exact hpl)
        (List.all_eq_true.2 fun c hc => (hr.perm c hc).1) ?_ hlen hg hrun
      obtain ⟨zs, ctx', q1, -, -, -, -, -⟩ := Verif.Plonk.commitPermutation_spec hd ht hr hbf delta
        be ga (fun _ _ _ => 0) pk hpf
        (fun k hk => Verif.Plonk.colValues_length hfl hsw.adviceLen hsw.instLen hf hsw.advice
          hsw.inst k (hr.perm k hk).1) calls hpp hrows hsw.copies (hnz _ hww).permutation [] (by simp)
      unfold Verif.Plonk.commitPermutation at q1
      rw [if_pos (List.all_eq_true.2 fun c hc => (hr.perm c hc).1)] at q1
      obtain ⟨zs', q2, q3⟩ := Option.bind_eq_some_iff.1 q1
      refine ⟨zs', q2, fun z hz => ?_⟩
      obtain ⟨c, r', q4⟩ := mapS_mem q3 z hz
      exact (rows_of_lag hs ht (commitRows_inv q4)).2.1)
    (forall₂_length hwl fun w hw => hw) g3.symm g1 h5
  -- lookup products
  obtain ⟨r₃, lp₂, d3, g11, g12, g13, g14, g15⟩ := mapSW_steers (d := d)
    (f₂ := fun (r : ℕ → (ℕ → F) × F) (ps : List (Permuted F × F × F)) =>
      mapSW (commitProductW threads e pr d cs.blindingFactors be ga
        { rng₁ with lookup := fun i => (r i).1, productBlind := fun i => (r i).2 }) ps)
    (R := fun ys₁ ys₂ => List.Forall₂ (fun y₁ y₂ =>
        Alike pr S (y₁.1.poly, y₁.2) (y₂.1.poly, y₂.2)) ys₁ ys₂)
    (by
      intro q₁ q₂ hq ctx₁ ctx₂ st st' ys₁ ctx₁' hlen hg hrun
      refine mapSW_steers (d := d) ?_ hq hlen hg hrun
      rintro p₁ p₂ ⟨-, -, w, hww, l, hl, c, ctx, hok⟩ ctx₁ ctx₂ st st' y₁ ctx₁' hlen hg hrun
      refine product_steers hs ht hw hS hx ?_ hlen hg hrun
      obtain ⟨z, ctx', q1, -⟩ := Verif.Plonk.commitProduct_spec hd ht hr hbf hn th be ga
        (fun _ _ => 0) l hl (hmem w hww l hl) ((hnz w hww).lookups l hl) hok [] (by simp)
      unfold Verif.Plonk.commitProduct at q1
      obtain ⟨z', q2, -⟩ := Option.bind_eq_some_iff.1 q1
      exact ⟨z', q2⟩)
    g4 g8.symm g6 h6
  refine ⟨fun i => (r₁ i).1, fun i => (r₁ i).2, fun i => (r₂ i).1,
    fun i => if i < d2.length then (r₂ i).2 else (r₃ i).2, fun i => (r₃ i).1, pm₂, pd₂, lp₂, d3,
    g4.imp fun _ _ h => h.imp fun _ _ h => ⟨h.1, h.2.1⟩, g9, g14, fun rng₀ => ?_⟩
  unfold proverProducts
  refine ok_bind h1 (ok_bind (a := (pm₂, d1)) (s1 := s2) ?_ (ok_bind h3 (ok_bind h4
    (ok_bind (a := (pd₂, d2)) (s1 := s5) ?_ (ok_bind (a := (lp₂, d3)) (s1 := s6) ?_ rfl)))))
  · exact g5 r₁ fun _ _ _ => rfl
  · refine g10 (fun i => ((r₂ i).1, if i < d2.length then (r₂ i).2 else (r₃ i).2)) fun i h1 h2 => ?_
    rw [if_pos (by omega)]
  · refine g15 (fun i => ((r₃ i).1, if i < d2.length then (r₂ i).2 else (r₃ i).2)) fun i h1 h2 => ?_
    rw [if_neg (by omega)]

end Verif.Hiding
