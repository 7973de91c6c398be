import Verif.Plonk.Model
import Verif.Lookup.Props
import Verif.Selectors.Props

/-!
# C32: degrees of the constraint polynomials
-/

namespace Verif.Plonk

open Verif.Expr Verif.ExprEval
open Verif.Cs (Cs Column Lookup le_listMax)
open Verif.Evaluator (Ast denote)
open Verif.Multicore (chunks)
open Polynomial (C X)

variable {F : Type*} [Field F] {omega : F} {P : ℕ → Polynomial F} {m : ℕ}

theorem mapM_inv {α β : Type*} {f : α → Option β} {l : List α} {r : List β}
    (h : l.mapM f = some r) : List.Forall₂ (fun a b => f a = some b) l r := by
  induction l generalizing r with
  | nil =>
    simp only [List.mapM_nil, Option.pure_def, Option.some.injEq] at h
    rw [← h]; exact .nil
  | cons a l ih =>
    rw [List.mapM_cons] at h
    simp only [Option.pure_def, Option.bind_eq_bind, Option.bind_eq_some_iff] at h
    obtain ⟨b, hb, bs, hbs, h⟩ := h
    rw [← Option.some.inj h]
    exact .cons hb (ih hbs)

theorem forall₂_right {α β : Type*} {R : α → β → Prop} {l : List α} {r : List β}
    (h : List.Forall₂ R l r) : ∀ b ∈ r, ∃ a ∈ l, R a b := by
  induction h with
  | nil => simp
  | cons h _ ih =>
    intro b hb
    rcases List.mem_cons.1 hb with rfl | hb
    · exact ⟨_, by simp, h⟩
    · obtain ⟨a, ha, hr⟩ := ih b hb
      exact ⟨a, by simp [ha], hr⟩

theorem natDegree_comp_le (p : Polynomial F) (c : F) (hp : p.natDegree ≤ m) :
    (p.comp (C c * X)).natDegree ≤ m := by
  refine Polynomial.natDegree_comp_le.trans ?_
  have : (C c * X : Polynomial F).natDegree ≤ 1 := Polynomial.natDegree_C_mul_le c X |>.trans Polynomial.natDegree_X_le
  calc p.natDegree * (C c * X).natDegree ≤ p.natDegree * 1 := Nat.mul_le_mul_left _ this
    _ ≤ m := by simpa using hp

/-- A leaf. -/
theorem degree_poly (hP : ∀ i, (P i).natDegree ≤ m) (i : ℕ) (r : ℤ) :
    (denote omega P (.poly i r)).natDegree ≤ 1 * m := by
  rw [denote, one_mul]; exact natDegree_comp_le _ _ (hP i)

theorem degree_const (c : F) : (denote omega P (.constantTerm c)).natDegree ≤ 0 * m := by
  simp [denote]

theorem degree_linear (hm : 1 ≤ m) (c : F) :
    (denote omega P (.linearTerm c)).natDegree ≤ 1 * m := by
  rw [denote]; exact ((Polynomial.natDegree_C_mul_le c X).trans Polynomial.natDegree_X_le).trans (by omega)

theorem degree_mul {a b : Ast F} {da db : ℕ} (ha : (denote omega P a).natDegree ≤ da * m)
    (hb : (denote omega P b).natDegree ≤ db * m) :
    (denote omega P (.mul a b)).natDegree ≤ (da + db) * m := by
  rw [denote, Nat.add_mul]; exact Polynomial.natDegree_mul_le.trans (by omega)

theorem degree_add {a b : Ast F} {da db : ℕ} (ha : (denote omega P a).natDegree ≤ da * m)
    (hb : (denote omega P b).natDegree ≤ db * m) :
    (denote omega P (.add a b)).natDegree ≤ max da db * m := by
  rw [denote]
  refine (Polynomial.natDegree_add_le _ _).trans (max_le (ha.trans ?_) (hb.trans ?_)) <;>
    exact Nat.mul_le_mul_right _ (by omega)

theorem degree_scale {a : Ast F} {da : ℕ} (c : F) (ha : (denote omega P a).natDegree ≤ da * m) :
    (denote omega P (.scale a c)).natDegree ≤ da * m := by
  rw [denote]; exact (Polynomial.natDegree_mul_C_le _ _).trans ha

theorem degree_sub {a b : Ast F} {da db : ℕ} (ha : (denote omega P a).natDegree ≤ da * m)
    (hb : (denote omega P b).natDegree ≤ db * m) :
    (denote omega P (Ast.sub a b)).natDegree ≤ max da db * m :=
  degree_add ha (degree_scale _ hb)

theorem degree_mono {a : Ast F} {da db : ℕ} (ha : (denote omega P a).natDegree ≤ da * m)
    (h : da ≤ db) : (denote omega P a).natDegree ≤ db * m :=
  ha.trans (Nat.mul_le_mul_right _ h)

/-- The polynomial the prover builds for an expression has degree at most `degree` times the
degree of the columns. -/
theorem degree_expr (hP : ∀ i, (P i).natDegree ≤ m) (fl al il : List ℕ) {e : Expr F}
    (hc : ColsLt fl.length al.length il.length e) (hs : e.sels = []) {t : Ast F}
    (ht : e.evaluate (astAlg fl al il) = some t) :
    (denote omega P t).natDegree ≤ e.degree * m := by
  obtain ⟨t', h1, h2⟩ := astAlg_eq omega P fl al il hc hs
  rw [ht] at h1
  obtain rfl := Option.some.inj h1
  rw [h2]
  exact degree_bound _ m (fun s => by simp) (fun q => natDegree_comp_le _ _ (hP _))
    (fun q => natDegree_comp_le _ _ (hP _)) (fun q => natDegree_comp_le _ _ (hP _)) e

theorem degree_leftAst {Col : Type*} (hP : ∀ i, (P i).natDegree ≤ m) (beta gamma : F)
    (colLeaf : Col → ℕ) (l : List (Col × ℕ)) (left : Ast F) (dl : ℕ)
    (h : (denote omega P left).natDegree ≤ dl * m) :
    (denote omega P (Verif.Permutation.leftAst beta gamma colLeaf l left)).natDegree
      ≤ (dl + l.length) * m := by
  induction l generalizing left dl with
  | nil => simpa [Verif.Permutation.leftAst] using h
  | cons a l ih =>
    rw [Verif.Permutation.leftAst]
    refine (ih _ (dl + 1) ?_).trans (Nat.mul_le_mul_right _ (by simp; omega))
    refine degree_mul h ?_
    exact degree_mono (degree_add (degree_add (degree_poly hP _ _)
      (degree_mul (degree_const _) (degree_poly hP _ _))) (degree_const _)) (by simp)

theorem degree_rightAst {Col : Type*} (hP : ∀ i, (P i).natDegree ≤ m) (hm : 1 ≤ m)
    (delta gamma : F) (colLeaf : Col → ℕ) (l : List Col) (cur : F) (right : Ast F) (dl : ℕ)
    (h : (denote omega P right).natDegree ≤ dl * m) :
    (denote omega P (Verif.Permutation.rightAst delta gamma colLeaf l cur right)).natDegree
      ≤ (dl + l.length) * m := by
  induction l generalizing right dl cur with
  | nil => simpa [Verif.Permutation.rightAst] using h
  | cons a l ih =>
    rw [Verif.Permutation.rightAst]
    refine (ih _ _ (dl + 1) ?_).trans (Nat.mul_le_mul_right _ (by simp; omega))
    refine degree_mul h ?_
    exact degree_mono (degree_add (degree_add (degree_poly hP _ _) (degree_linear hm _))
      (degree_const _)) (by simp)

theorem length_of_mem_chunks {α : Type*} {L : ℕ} (hL : L ≠ 0) {l c : List α}
    (h : c ∈ chunks L l) : c.length ≤ L := by
  obtain ⟨i, hi, rfl⟩ := List.getElem_of_mem h
  rw [Verif.Permutation.chunks_getElem hL]
  simp

/-- **C32**, permutation: with sets of `csDegree - 2` columns every constraint polynomial has
degree at most `csDegree` times that of the columns. -/
theorem permutation_degree {Col : Type*} (hP : ∀ i, (P i).natDegree ≤ m) (hm : 1 ≤ m)
    (csDegree bf : ℕ) (hcs : 3 ≤ csDegree) (sets : List ℕ) (columns : List Col)
    (permLeaves : List ℕ) (colLeaf : Col → ℕ) (l0 lBlind lLast : ℕ) (beta gamma delta : F) :
    ∀ a ∈ Verif.Permutation.construct (csDegree - 2) bf sets columns permLeaves colLeaf l0 lBlind
      lLast beta gamma delta, (denote omega P a).natDegree ≤ csDegree * m := by
  intro a ha
  rw [Verif.Permutation.construct] at ha
  simp only [List.mem_append, Option.mem_toList, Option.map_eq_some_iff, List.mem_map] at ha
  rcases ha with ((⟨s, -, rfl⟩ | ⟨s, -, rfl⟩) | ⟨⟨s, t⟩, -, rfl⟩) | ⟨⟨⟨s, cols, ps⟩, i⟩, hi, rfl⟩
  · exact degree_mono (degree_mul (degree_sub (degree_const _) (degree_poly hP _ _))
      (degree_poly hP _ _)) (by simp; omega)
  · exact degree_mono (degree_mul (degree_sub (degree_mul (degree_poly hP _ _)
      (degree_poly hP _ _)) (degree_poly hP _ _)) (degree_poly hP _ _)) (by simp; omega)
  · exact degree_mono (degree_mul (degree_sub (degree_poly hP _ _) (degree_poly hP _ _))
      (degree_poly hP _ _)) (by simp; omega)
  · have hmem := (List.of_mem_zip (List.mem_of_getElem?
      ((List.mk_mem_zipIdx_iff_getElem?).1 hi))).2
    have hlen := length_of_mem_chunks (by omega) (List.of_mem_zip hmem).1
    refine degree_mono (degree_mul (degree_sub
      (degree_leftAst hP _ _ _ _ _ 1 (degree_poly hP _ _))
      (degree_rightAst hP hm _ _ _ _ _ _ 1 (degree_poly hP _ _)))
      (degree_sub (degree_const _) (degree_add (degree_poly hP _ _) (degree_poly hP _ _)))) ?_
    simp
    omega

theorem compressCoset_degree (hP : ∀ i, (P i).natDegree ≤ m) (fl al il : List ℕ) (theta : F)
    (es : List (Expr F)) (D : ℕ) (h : ∀ e ∈ es, ColsLt fl.length al.length il.length e ∧ e.sels = []
      ∧ e.degree ≤ D) {t : Ast F}
    (ht : Verif.Lookup.compressCosetAst theta fl al il es = some t) :
    (denote omega P t).natDegree ≤ D * m := by
  rw [Verif.Lookup.compressCosetAst, Option.map_eq_some_iff] at ht
  obtain ⟨ts, hts, rfl⟩ := ht
  have hall : ∀ t ∈ ts, (denote omega P t).natDegree ≤ D * m := by
    intro t ht
    obtain ⟨e, he, hev⟩ := forall₂_right (mapM_inv hts) t ht
    exact degree_mono (degree_expr hP fl al il (h e he).1 (h e he).2.1 hev) (h e he).2.2
  have key : ∀ (ts : List (Ast F)) (acc : Ast F), (∀ t ∈ ts, (denote omega P t).natDegree ≤ D * m) →
      (denote omega P acc).natDegree ≤ D * m →
      (denote omega P (ts.foldl (fun acc t => .add (.mul acc (.constantTerm theta)) t)
        acc)).natDegree ≤ D * m := by
    intro ts
    induction ts with
    | nil => intro acc _ h; exact h
    | cons t ts ih =>
      intro acc hts hacc
      refine ih _ (fun t ht => hts t (List.mem_cons_of_mem _ ht)) ?_
      exact degree_mono (degree_add (degree_mul hacc (degree_const _)) (hts t (by simp))) (by simp)
  exact key ts _ hall (by simp [denote])

theorem foldl_max_ge (l : List (Expr F)) (d : ℕ) :
    d ≤ l.foldl (fun d e => max d e.degree) d ∧
    ∀ e ∈ l, e.degree ≤ l.foldl (fun d e => max d e.degree) d := by
  induction l generalizing d with
  | nil => simp
  | cons a l ih =>
    obtain ⟨h1, h2⟩ := ih (max d a.degree)
    simp only [List.foldl_cons]
    refine ⟨by omega, ?_⟩
    intro e he
    rcases List.mem_cons.1 he with rfl | he
    · omega
    · exact h2 e he

theorem lookup_degree_le (cs : Cs F) (l : Lookup F) (hl : l ∈ cs.lookups) :
    l.requiredDegree ≤ cs.degree := by
  have h : l.requiredDegree ≤ (Verif.Cs.listMax? (cs.lookups.map Lookup.requiredDegree)).getD 1 :=
    le_listMax (List.mem_map_of_mem hl)
  rw [Cs.degree]
  omega

/-- **C32**, lookups. -/
theorem lookup_degree (hP : ∀ i, (P i).natDegree ≤ m) (cs : Cs F) (l : Lookup F)
    (hl : l ∈ cs.lookups) (hok : Verif.Lookup.Ok cs l) (fl al il : List ℕ)
    (hcols : ∀ e ∈ l.input ++ l.table, ColsLt fl.length al.length il.length e)
    (theta beta gamma : F) (z a s l0 lBlind lLast : ℕ) {input table : Ast F}
    (hin : Verif.Lookup.compressCosetAst theta fl al il l.input = some input)
    (htab : Verif.Lookup.compressCosetAst theta fl al il l.table = some table) :
    ∀ t ∈ Verif.Lookup.construct z a s input table beta gamma l0 lBlind lLast,
      (denote omega P t).natDegree ≤ cs.degree * m := by
  have hreq := lookup_degree_le cs l hl
  have i1 := foldl_max_ge l.input 1
  have t1 := foldl_max_ge l.table 1
  have hI := compressCoset_degree (omega := omega) hP fl al il theta l.input _
    (fun e he => ⟨hcols e (by simp [he]), (hok e (by simp [he])).2, i1.2 e he⟩) hin
  have hT := compressCoset_degree (omega := omega) hP fl al il theta l.table _
    (fun e he => ⟨hcols e (by simp [he]), (hok e (by simp [he])).2, t1.2 e he⟩) htab
  rw [Lookup.requiredDegree] at hreq
  generalize l.input.foldl (fun d e => max d e.degree) 1 = di at *
  generalize l.table.foldl (fun d e => max d e.degree) 1 = dt at *
  have hact := degree_sub (degree_const (omega := omega) (P := P) (m := m) 1)
    (degree_add (degree_poly (omega := omega) hP lLast 0) (degree_poly (omega := omega) hP lBlind 0))
  intro t ht
  simp only [Verif.Lookup.construct, List.mem_cons, List.not_mem_nil, or_false] at ht
  have hp := fun i r => degree_poly (omega := omega) hP i r
  have hc := fun c => degree_const (omega := omega) (P := P) (m := m) c
  rcases ht with rfl | rfl | rfl | rfl | rfl
  · exact degree_mono (degree_mul (degree_sub (hc _) (hp _ _)) (hp _ _)) (by simp; omega)
  · exact degree_mono (degree_mul (degree_sub (degree_mul (hp _ _) (hp _ _)) (hp _ _)) (hp _ _))
      (by simp; omega)
  · exact degree_mono (degree_mul (degree_sub
      (degree_mul (degree_mul (hp _ _) (degree_add (hp _ _) (hc _))) (degree_add (hp _ _) (hc _)))
      (degree_mul (degree_mul (hp _ _) (degree_add hI (hc _))) (degree_add hT (hc _)))) hact)
      (by simp; omega)
  · exact degree_mono (degree_mul (degree_sub (hp _ _) (hp _ _)) (hp _ _)) (by simp; omega)
  · exact degree_mono (degree_mul (degree_mul (degree_sub (hp _ _) (hp _ _))
      (degree_sub (hp _ _) (hp _ _))) hact) (by simp; omega)

/-- **C32**: every constraint polynomial of a circuit — gates, permutation, lookups — has degree at
most `cs.degree()` times that of the columns. -/
theorem expressions_degree (hP : ∀ i, (P i).natDegree ≤ m) (hm : 1 ≤ m) (cs : Cs F) (delta : F)
    (ch : Challenges F) (cf : List ℕ) (c : Leaves)
    (hgates : ∀ e ∈ cs.gates.flatten, e.sels = [] ∧
      ColsLt cf.length c.advice.length c.inst.length e)
    (hok : ∀ l ∈ cs.lookups, Verif.Lookup.Ok cs l ∧
      ∀ e ∈ l.input ++ l.table, ColsLt cf.length c.advice.length c.inst.length e)
    (perm : List ℕ) (l0 lBlind lLast : ℕ) (products : List (Product F))
    (lookups : List (Permuted F × Product F))
    (hlook : List.Forall₂ (fun l (p : Permuted F × Product F) =>
      Verif.Lookup.compressCosetAst ch.theta cf c.advice c.inst l.input = some p.1.inputCoset ∧
      Verif.Lookup.compressCosetAst ch.theta cf c.advice c.inst l.table = some p.1.tableCoset)
      cs.lookups lookups) {asts : List (Ast F)}
    (h : proverExpressions cs delta ch cf c perm l0 lBlind lLast products lookups = some asts) :
    ∀ a ∈ asts, (denote omega P a).natDegree ≤ cs.degree * m := by
  rw [proverExpressions, Option.map_eq_some_iff] at h
  obtain ⟨gs, hgs, rfl⟩ := h
  have hcs : 3 ≤ cs.degree := by rw [Cs.degree, Verif.Cs.permRequiredDegree]; omega
  intro a ha
  simp only [List.mem_append] at ha
  rcases ha with (ha | ha) | ha
  · obtain ⟨e, he, hev⟩ := forall₂_right (mapM_inv hgs) a ha
    refine degree_mono (degree_expr hP cf c.advice c.inst (hgates e he).2 (hgates e he).1 hev) ?_
    obtain ⟨g, hg, heg⟩ := List.mem_flatten.1 he
    have h : e.degree ≤ (Verif.Cs.listMax? (cs.gates.flatMap fun g => g.map Expr.degree)).getD 0 :=
      le_listMax (List.mem_flatMap.2 ⟨g, hg, List.mem_map_of_mem heg⟩)
    rw [Cs.degree]
    omega
  · exact permutation_degree hP hm _ _ hcs _ _ _ _ _ _ _ _ _ _ a ha
  · obtain ⟨p, hp, ha⟩ := List.mem_flatMap.1 ha
    obtain ⟨l, hl, hin, htab⟩ := forall₂_right hlook p hp
    exact lookup_degree hP cs l hl (hok l hl).1 _ _ _ (hok l hl).2 _ _ _ _ _ _ _ _ _ hin htab a ha

/-- **C32**: the numerator of the quotient, the constraint polynomials combined with powers of
`y`, has degree below `n` times `cs.degree()`; so divided by `X^n - 1` it fits in the
`cs.degree() - 1` pieces of `n` coefficients the verifier reads. -/
theorem quotient_fits (n D : ℕ) (hn : 0 < n) (hD : 0 < D) (y : F) (ps : List (Polynomial F))
    (h : ∀ p ∈ ps, p.natDegree ≤ D * (n - 1)) (q : Polynomial F)
    (hq : q * (X ^ n - 1) = ps.foldl (fun acc e => acc * C y + e) 0) :
    (ps.foldl (fun acc e => acc * C y + e) 0).degree < ((n * D : ℕ) : WithBot ℕ) ∧
      q.degree < ((n * (D - 1) : ℕ) : WithBot ℕ) := by
  have key : ∀ (ps : List (Polynomial F)) (acc : Polynomial F), acc.natDegree ≤ D * (n - 1) →
      (∀ p ∈ ps, p.natDegree ≤ D * (n - 1)) →
      (ps.foldl (fun acc e => acc * C y + e) acc).natDegree ≤ D * (n - 1) := by
    intro ps
    induction ps with
    | nil => intro acc h _; exact h
    | cons p ps ih =>
      intro acc hacc hps
      refine ih _ ?_ fun p hp => hps p (List.mem_cons_of_mem _ hp)
      refine (Polynomial.natDegree_add_le _ _).trans (max_le ?_ (hps p (by simp)))
      exact (Polynomial.natDegree_mul_C_le _ _).trans hacc
  have hnum := key ps 0 (by simp) h
  have hlt : D * (n - 1) < n * D := by
    obtain ⟨n, rfl⟩ := Nat.exists_eq_succ_of_ne_zero hn.ne'
    simp only [Nat.succ_eq_add_one, Nat.add_sub_cancel]
    nlinarith
  refine ⟨?_, ?_⟩
  · exact (Polynomial.degree_le_natDegree).trans_lt (by exact_mod_cast hnum.trans_lt hlt)
  · by_cases h0 : q = 0
    · rw [h0, Polynomial.degree_zero]; exact WithBot.bot_lt_coe _
    · have hv : (X ^ n - 1 : Polynomial F).Monic := by
        simpa using Polynomial.monic_X_pow_sub_C (1 : F) hn.ne'
      have hd : q.natDegree + n = (ps.foldl (fun acc e => acc * C y + e) 0).natDegree := by
        rw [← hq, Polynomial.natDegree_mul h0 hv.ne_zero]
        congr 1
        have := Polynomial.natDegree_X_pow_sub_C (n := n) (r := (1 : F))
        rw [map_one] at this
        exact this.symm
      have : q.natDegree < n * (D - 1) := by
        obtain ⟨D, rfl⟩ := Nat.exists_eq_succ_of_ne_zero hD.ne'
        have e1 : n * (D + 1) = n * D + n := by ring
        simp only [Nat.succ_eq_add_one, Nat.add_sub_cancel] at *
        omega
      exact (Polynomial.degree_le_natDegree).trans_lt (by exact_mod_cast this)

end Verif.Plonk
