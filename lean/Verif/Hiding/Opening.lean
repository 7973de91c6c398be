import Verif.Hiding.Products

/-!
# Steering evaluations and openings (C77)
-/

namespace Verif.Hiding

open Verif.Cs (Cs Column Lookup)
open Verif.Domain (Domain)
open Verif.PolyArith (evalPolynomial)
open Verif.Plonk (Pk Circuit Leaves Permuted Product Challenges CircuitProof CircuitEvals mapS
  register rows Good VGood At ev PermutedOk permsOf colValues Sat Nonzero Ready cols queryEvals
  circuitEvals)
open Verif.Msm Verif.Transcript Verif.Multicore
open Verif.Multiopen (Query Commitment commitOf horner CommitmentData constructIntermediateSets)
open Verif.Ipa (ParamsOk)
open Verif.Protocol

/-! ### The slot of the quotient and the random polynomial -/

section Slot

variable {F ι : Type} [Field F] [DecidableEq F] [DecidableEq ι]

/-- Two commitments queried last, at the same point, end the list of one slot: only the
combination of their values matters. -/
theorem horner_tail {qs : List (Query F ι Unit)} {x x₁ : F} {a b : ι} (hab : a ≠ b)
    (ha : ∀ q ∈ qs, q.commitment ≠ a) (hb : ∀ q ∈ qs, q.commitment ≠ b) {f₁ f₂ : ι → F}
    (hf : ∀ q ∈ qs, f₂ q.commitment = f₁ q.commitment)
    (h : x₁ * f₂ a + f₂ b = x₁ * f₁ a + f₁ b) {cds : List (CommitmentData ι Unit)}
    {ps : List (List F)}
    (hc : constructIntermediateSets (qs ++ [⟨x, a, ()⟩, ⟨x, b, ()⟩]) = .ok (cds, ps)) (s : ℕ) :
    horner x₁ (fun cd : CommitmentData ι Unit => f₂ cd.commitment)
        (cds.filter fun cd => cd.setIndex = s)
      = horner x₁ (fun cd : CommitmentData ι Unit => f₁ cd.commitment)
        (cds.filter fun cd => cd.setIndex = s) := by
  rw [Verif.Multiopen.construct_eq] at hc
  split_ifs at hc with hnd
  obtain ⟨rfl, -⟩ := Prod.mk.inj (Except.ok.inj hc)
  obtain ⟨Q, hQ⟩ : ∃ Q, Q = qs ++ [⟨x, a, ()⟩, ⟨x, b, ()⟩] := ⟨_, rfl⟩
  rw [← hQ]
  have e1 : Verif.Multiopen.commitmentsOf Q = Verif.Multiopen.commitmentsOf qs ++ [a] ++ [b] := by
    have m1 : a ∉ Verif.Multiopen.firsts (qs.map Query.commitment) := by
      rw [Verif.Multiopen.mem_firsts, List.mem_map]
      rintro ⟨q, hq, h⟩
      exact ha q hq h
    have m2 : b ∉ Verif.Multiopen.firsts (qs.map Query.commitment) ++ [a] := by
      rw [List.mem_append, Verif.Multiopen.mem_firsts, List.mem_map, List.mem_singleton]
      rintro (⟨q, hq, h⟩ | h)
      · exact hb q hq h
      · exact hab h.symm
    have l : Q.map Query.commitment = qs.map Query.commitment ++ [a] ++ [b] := by rw [hQ]; simp
    unfold Verif.Multiopen.commitmentsOf
    rw [l, Verif.Multiopen.firsts_snoc, Verif.Multiopen.firsts_snoc]
    unfold Verif.Multiopen.insertNew
    rw [if_neg m1, if_neg m2]
  have e2 : (Verif.Multiopen.cdOf Q b).setIndex = (Verif.Multiopen.cdOf Q a).setIndex := by
    have k : ∀ c, (∀ q ∈ qs, q.commitment ≠ c) → qs.filter (fun q => q.commitment = c) = [] := by
      intro c hc
      rw [List.filter_eq_nil_iff]
      intro q hq
      simpa using hc q hq
    have i1 : Verif.Multiopen.indicesOf Q (Verif.Multiopen.pointsOf Q) a
        = [(Verif.Multiopen.pointsOf Q).idxOf x] := by
      unfold Verif.Multiopen.indicesOf
      conv_lhs => rw [hQ, List.filter_append, k a ha]
      simp [hab.symm, ← hQ]
    have i2 : Verif.Multiopen.indicesOf Q (Verif.Multiopen.pointsOf Q) b
        = [(Verif.Multiopen.pointsOf Q).idxOf x] := by
      unfold Verif.Multiopen.indicesOf
      conv_lhs => rw [hQ, List.filter_append, k b hb]
      simp [hab, ← hQ]
    show (Verif.Multiopen.setsOf Q).idxOf (Verif.Multiopen.setOf Q b)
      = (Verif.Multiopen.setsOf Q).idxOf (Verif.Multiopen.setOf Q a)
    unfold Verif.Multiopen.setOf
    rw [i1, i2]
  have e3 : ∀ l : List (CommitmentData ι Unit), (∀ cd ∈ l, f₂ cd.commitment = f₁ cd.commitment) →
      horner x₁ (fun cd : CommitmentData ι Unit => f₂ cd.commitment) l
        = horner x₁ (fun cd : CommitmentData ι Unit => f₁ cd.commitment) l := by
    intro l
    induction l using List.reverseRecOn with
    | nil => intro _; rfl
    | append_singleton l cd ih =>
      intro hl
      rw [Verif.Multiopen.horner_snoc, Verif.Multiopen.horner_snoc, ih fun c hc => hl c (by simp [hc]),
        hl cd (by simp)]
  have e4 := e3 (((Verif.Multiopen.commitmentsOf qs).map (Verif.Multiopen.cdOf Q)).filter
    fun cd => cd.setIndex = s) (by
      intro cd hcd
      obtain ⟨c, hc, rfl⟩ := List.mem_map.1 (List.mem_of_mem_filter hcd)
      unfold Verif.Multiopen.commitmentsOf at hc
      rw [Verif.Multiopen.mem_firsts] at hc
      obtain ⟨q, hq, rfl⟩ := List.mem_map.1 hc
      exact hf q hq)
  rw [e1, List.map_append, List.map_append, List.filter_append, List.filter_append]
  by_cases hs : (Verif.Multiopen.cdOf Q a).setIndex = s
  · have f1 : ([a].map (Verif.Multiopen.cdOf Q)).filter (fun cd => cd.setIndex = s)
        = [Verif.Multiopen.cdOf Q a] := by simp [hs]
    have f2 : ([b].map (Verif.Multiopen.cdOf Q)).filter (fun cd => cd.setIndex = s)
        = [Verif.Multiopen.cdOf Q b] := by simp [e2, hs]
    rw [f1, f2]
    simp only [Verif.Multiopen.horner_snoc, smul_eq_mul]
    rw [e4]
    have g1 : (Verif.Multiopen.cdOf Q a).commitment = a := rfl
    have g2 : (Verif.Multiopen.cdOf Q b).commitment = b := rfl
    rw [g1, g2]
    linear_combination h
  · have f1 : ([a].map (Verif.Multiopen.cdOf Q)).filter (fun cd => cd.setIndex = s) = [] := by
      simp [hs]
    have f2 : ([b].map (Verif.Multiopen.cdOf Q)).filter (fun cd => cd.setIndex = s) = [] := by
      simp [e2, hs]
    rw [f1, f2, List.append_nil, List.append_nil]
    exact e4

end Slot

section Open

variable {F K A : Type} [Field F] [LinearOrder F] [AddCommGroup A] [Module F A] [Field K]
  [LinearOrder K] {threads : ℕ} {pr : Params A} {d : Domain F}

/-- The points at which columns are looked at. -/
structure Points (d : Domain F) (cs : Cs F) (x x₃ : F) (T : ℕ → Finset F) (T0 : Finset F) : Prop where
  adv : ∀ q ∈ cs.adviceQueries, d.rotateOmega x q.2 ∈ T q.1
  advThird : ∀ j, x₃ ∈ T j
  cur : x ∈ T0
  next : d.rotateOmega x 1 ∈ T0
  prev : d.rotateOmega x (-1) ∈ T0
  last : d.rotateOmega x (-((cs.blindingFactors : ℤ) + 1)) ∈ T0
  third : x₃ ∈ T0

/-- What is opened of two circuits that cannot be told apart. -/
structure OpensAlike (pr : Params A) (T : ℕ → Finset F) (T0 : Finset F)
    (o₁ o₂ : Opens (List F × F)) : Prop where
  inst : o₂.inst = o₁.inst
  adviceLen : o₂.advice.length = o₁.advice.length
  advice : ∀ (j : ℕ) q₁ q₂, o₁.advice[j]? = some q₁ → o₂.advice[j]? = some q₂ → Alike pr (T j) q₁ q₂
  permutation : List.Forall₂ (Alike pr T0) o₁.permutation o₂.permutation
  lookups : List.Forall₂ (fun a b => Alike pr T0 a.1 b.1 ∧ Alike pr T0 a.2.1 b.2.1 ∧
    Alike pr T0 a.2.2 b.2.2) o₁.lookups o₂.lookups

theorem mapM_option_congr {α β : Type*} {f g : α → Option β} {l : List α}
    (h : ∀ a ∈ l, f a = g a) : l.mapM f = l.mapM g := by
  induction l with
  | nil => rfl
  | cons a l ih =>
    rw [List.mapM_cons, List.mapM_cons, h a (by simp), ih fun b hb => h b (by simp [hb])]

variable {cs : Cs F} {x x₃ : F} {T : ℕ → Finset F} {T0 : Finset F} {o₁ o₂ : Opens (List F × F)}

omit [LinearOrder K] [Field K] in
theorem OpensAlike.queryEvals (hp : Points d cs x x₃ T T0) (h : OpensAlike pr T T0 o₁ o₂) :
    Verif.Plonk.queryEvals d x (o₂.advice.map Prod.fst) cs.adviceQueries
      = Verif.Plonk.queryEvals d x (o₁.advice.map Prod.fst) cs.adviceQueries := by
  unfold Verif.Plonk.queryEvals
  refine mapM_option_congr fun q hq => ?_
  rw [List.getElem?_map, List.getElem?_map]
  by_cases hlt : q.1 < o₁.advice.length
  · have h1 := List.getElem?_eq_getElem hlt
    have h2 := List.getElem?_eq_getElem (l := o₂.advice) (i := q.1) (by rw [h.adviceLen]; exact hlt)
    rw [h1, h2]
    simp only [Option.map_some]
    rw [(h.advice q.1 _ _ h1 h2).evals _ (hp.adv q hq)]
  · rw [List.getElem?_eq_none (l := o₂.advice) (by rw [h.adviceLen]; omega),
      List.getElem?_eq_none (l := o₁.advice) (by omega)]

omit [LinearOrder K] [Field K] in
theorem OpensAlike.circuitEvals (hp : Points d cs x x₃ T T0) (h : OpensAlike pr T T0 o₁ o₂) :
    Verif.Plonk.circuitEvals d cs x (proofOf o₂) = Verif.Plonk.circuitEvals d cs x (proofOf o₁) := by
  unfold Verif.Plonk.circuitEvals
  simp only [proofOf]
  rw [h.inst, h.queryEvals hp]
  have hl := h.permutation.length_eq
  have e1 : (List.map Prod.fst o₂.permutation).mapIdx (fun i z =>
      (⟨evalPolynomial z x, evalPolynomial z (d.rotateOmega x 1),
        if i + 1 < (List.map Prod.fst o₂.permutation).length then
          some (evalPolynomial z (d.rotateOmega x (-((cs.blindingFactors : ℤ) + 1)))) else none⟩ :
          Verif.Permutation.SetEvals F))
      = (List.map Prod.fst o₁.permutation).mapIdx fun i z =>
      (⟨evalPolynomial z x, evalPolynomial z (d.rotateOmega x 1),
        if i + 1 < (List.map Prod.fst o₁.permutation).length then
          some (evalPolynomial z (d.rotateOmega x (-((cs.blindingFactors : ℤ) + 1)))) else none⟩ :
          Verif.Permutation.SetEvals F) := by
    apply List.ext_getElem
    · simp [hl]
    · intro i h1 h2
      simp only [List.length_mapIdx, List.length_map] at h1 h2
      have ha := List.Forall₂.get h.permutation h2 h1
      simp only [List.get_eq_getElem] at ha
      simp only [List.getElem_mapIdx, List.getElem_map, List.length_map, hl,
        ha.evals _ hp.cur, ha.evals _ hp.next, ha.evals _ hp.last]
  have e2 : (o₂.lookups.map fun q : (List F × F) × (List F × F) × (List F × F) =>
        (q.1.1, q.2.1.1, q.2.2.1)).map (fun (q : List F × List F × List F) =>
      (⟨evalPolynomial q.1 x, evalPolynomial q.1 (d.rotateOmega x 1), evalPolynomial q.2.1 x,
        evalPolynomial q.2.1 (d.rotateOmega x (-1)), evalPolynomial q.2.2 x⟩ : Verif.Lookup.Evals F))
      = (o₁.lookups.map fun q : (List F × F) × (List F × F) × (List F × F) =>
        (q.1.1, q.2.1.1, q.2.2.1)).map fun (q : List F × List F × List F) =>
      (⟨evalPolynomial q.1 x, evalPolynomial q.1 (d.rotateOmega x 1), evalPolynomial q.2.1 x,
        evalPolynomial q.2.1 (d.rotateOmega x (-1)), evalPolynomial q.2.2 x⟩ :
          Verif.Lookup.Evals F) := by
    apply List.ext_getElem
    · simp [h.lookups.length_eq]
    · intro i h1 h2
      simp only [List.length_map] at h1 h2
      obtain ⟨a1, a2, a3⟩ := List.Forall₂.get h.lookups h2 h1
      simp only [List.get_eq_getElem] at a1 a2 a3
      simp only [List.getElem_map, a1.evals _ hp.cur, a1.evals _ hp.next, a2.evals _ hp.cur,
        a2.evals _ hp.prev, a3.evals _ hp.cur]
  congr 1
  funext i
  congr 1
  funext a
  congr 1

omit [LinearOrder K] in
theorem evalPermutation_congr (e : Enc F K A) (hp : Points d cs x x₃ T T0)
    {l₁ l₂ : List (List F × F)} (h : List.Forall₂ (Alike pr T0) l₁ l₂) :
    evalPermutation e d cs.blindingFactors x (l₂.map Prod.fst)
      = evalPermutation e d cs.blindingFactors x (l₁.map Prod.fst) := by
  induction h with
  | nil => rfl
  | cons ha hl ih =>
    simp only [List.map_cons]
    unfold evalPermutation
    rw [ih, ha.evals _ hp.cur, ha.evals _ hp.next, ha.evals _ hp.last, List.length_map,
      List.length_map, hl.length_eq]

theorem mapM_forall₂ {α α' β σ : Type} {f : α → StateT σ (Except Err) β}
    {g : α' → StateT σ (Except Err) β} {R : α → α' → Prop} (h : ∀ a b, R a b → g b = f a)
    {l : List α} {m : List α'} (hl : List.Forall₂ R l m) : m.mapM g = l.mapM f := by
  induction hl with
  | nil => rfl
  | cons ha _ ih => rw [List.mapM_cons, List.mapM_cons, ih, h _ _ ha]

omit [LinearOrder K] in
theorem evalLookups_congr (e : Enc F K A) (hp : Points d cs x x₃ T T0)
    (h : OpensAlike pr T T0 o₁ o₂) :
    (o₂.lookups.mapM fun (q : (List F × F) × (List F × F) × (List F × F)) =>
      evalLookup e d x (q.1.1, q.2.1.1, q.2.2.1))
      = o₁.lookups.mapM fun (q : (List F × F) × (List F × F) × (List F × F)) =>
      evalLookup e d x (q.1.1, q.2.1.1, q.2.2.1) := by
  refine mapM_forall₂ ?_ h.lookups
  rintro a b ⟨a1, a2, a3⟩
  unfold evalLookup
  dsimp only
  rw [a1.evals _ hp.cur, a1.evals _ hp.next, a2.evals _ hp.cur, a2.evals _ hp.prev,
    a3.evals _ hp.cur]

/-! ### The queries -/

/-- All queries but the last two. -/
def front {P : Type} (d : Domain F) (cs : Cs F) (x : F) (os : List (Opens P))
    (perms : ℕ) : List (Query F Ptr Unit) :=
  (os.zipIdx.flatMap fun q => openCircuit d cs x q.1 q.2)
  ++ cs.fixedQueries.map (fun q => ⟨d.rotateOmega x q.2, .fixed q.1, ()⟩)
  ++ (List.range perms).map (fun j => ⟨x, .permCommon j, ()⟩)

omit [LinearOrder F] [LinearOrder K] [Field K] [AddCommGroup A] [Module F A] in
theorem queries_front {P : Type} (os : List (Opens P)) (perms : ℕ) :
    proverQueries d cs x os perms = front d cs x os perms ++ [⟨x, .h, ()⟩, ⟨x, .random, ()⟩] := rfl

omit [LinearOrder K] [Field K] in
theorem queries_congr {os₁ os₂ : List (Opens (List F × F))}
    (h : List.Forall₂ (OpensAlike pr T T0) os₁ os₂) (perms : ℕ) :
    proverQueries d cs x os₂ perms = proverQueries d cs x os₁ perms := by
  have key : ∀ k, (os₂.zipIdx k).flatMap (fun q => openCircuit d cs x q.1 q.2)
      = (os₁.zipIdx k).flatMap fun q => openCircuit d cs x q.1 q.2 := by
    induction h with
    | nil => intro k; rfl
    | cons ha _ ih =>
      intro k
      simp only [List.zipIdx_cons, List.flatMap_cons]
      rw [ih]
      congr 1
      unfold openCircuit
      rw [ha.permutation.length_eq, ha.lookups.length_eq]
  unfold proverQueries
  rw [key]

omit [LinearOrder K] [Field K] [LinearOrder F] in
theorem getD_alike {S : Finset F} {a b : Option (List F × F)}
    (hR : ∀ q₁ q₂, a = some q₁ → b = some q₂ → Alike pr S q₁ q₂) (hn : pr.n ≠ 0)
    (h1 : (a.getD ([], 0)).1.length = pr.n) (h2 : (b.getD ([], 0)).1.length = pr.n) :
    Alike pr S (a.getD ([], 0)) (b.getD ([], 0)) := by
  cases a with
  | none => exact absurd h1.symm hn
  | some q₁ =>
    cases b with
    | none => exact absurd h2.symm hn
    | some q₂ => exact hR q₁ q₂ rfl rfl

omit [LinearOrder K] [Field K] [LinearOrder F] in
theorem opens_get {P Q : Type} {R : Opens P → Opens P → Prop} {os₁ os₂ : List (Opens P)}
    (h : List.Forall₂ R os₁ os₂) {i : ℕ} {f g : Opens P → Option Q} {q₁ q₂ : Q}
    (h1 : os₁[i]?.bind f = some q₁) (h2 : os₂[i]?.bind g = some q₂) :
    ∃ o₁ o₂, R o₁ o₂ ∧ f o₁ = some q₁ ∧ g o₂ = some q₂ := by
  obtain ⟨a, ha, h1⟩ := Option.bind_eq_some_iff.1 h1
  obtain ⟨b, hb, h2⟩ := Option.bind_eq_some_iff.1 h2
  obtain ⟨l1, rfl⟩ := List.getElem?_eq_some_iff.1 ha
  obtain ⟨l2, rfl⟩ := List.getElem?_eq_some_iff.1 hb
  exact ⟨_, _, List.Forall₂.get h l1 l2, h1, h2⟩

theorem forall₂_get? {α β : Type*} {R : α → β → Prop} {l : List α} {m : List β}
    (h : List.Forall₂ R l m) {i : ℕ} {a : α} {b : β} (h1 : l[i]? = some a) (h2 : m[i]? = some b) :
    R a b := by
  obtain ⟨l1, rfl⟩ := List.getElem?_eq_some_iff.1 h1
  obtain ⟨l2, rfl⟩ := List.getElem?_eq_some_iff.1 h2
  exact List.Forall₂.get h l1 l2

omit [LinearOrder K] [Field K] in
/-- Every polynomial but the quotient and the random one is alike at its query point and at
`x₃`. -/
theorem front_alike (hp : Points d cs x x₃ T T0) {os₁ os₂ : List (Opens (List F × F))}
    (h : List.Forall₂ (OpensAlike pr T T0) os₁ os₂) (hn : pr.n ≠ 0) {fixed perm : List (List F × F)}
    {h₁ h₂ r₁ r₂ : List F × F} {perms : ℕ} (q : Query F Ptr Unit)
    (hq : q ∈ front d cs x os₁ perms)
    (l1 : (deref ([], 0) os₁ fixed perm h₁ r₁ q.commitment).1.length = pr.n)
    (l2 : (deref ([], 0) os₂ fixed perm h₂ r₂ q.commitment).1.length = pr.n) :
    q.commitment ≠ .h ∧ q.commitment ≠ .random ∧
    Alike pr {q.point, x₃} (deref ([], 0) os₁ fixed perm h₁ r₁ q.commitment)
      (deref ([], 0) os₂ fixed perm h₂ r₂ q.commitment) := by
  have sub : ∀ {S : Finset F} {p : F} {a b : List F × F}, p ∈ S → x₃ ∈ S → Alike pr S a b →
      Alike pr {p, x₃} a b := by
    intro S p a b h1 h2 h
    refine ⟨h.len₁, h.len₂, h.comm, fun s hs => h.evals s ?_⟩
    rcases Finset.mem_insert.1 hs with rfl | hs
    · exact h1
    · rw [Finset.mem_singleton.1 hs]; exact h2
  have refl : ∀ {S : Finset F} {a : List F × F}, a.1.length = pr.n → Alike pr S a a :=
    fun h => ⟨h, h, rfl, fun _ _ => rfl⟩
  unfold front at hq
  simp only [List.mem_append, List.mem_flatMap, List.mem_map, List.mem_range] at hq
  rcases hq with (hq | hq) | hq
  · obtain ⟨⟨o, i⟩, -, hq⟩ := hq
    unfold openCircuit openPermutation openLookup at hq
    simp only [List.mem_append, List.mem_flatMap, List.mem_map, List.mem_cons, List.mem_range,
      List.not_mem_nil, or_false] at hq
    rcases hq with ((hq | hq) | hq | hq) | hq
    · obtain ⟨c, hc, rfl⟩ := hq
      refine ⟨nofun, nofun, getD_alike ?_ hn l1 l2⟩
      intro q₁ q₂ e1 e2
      have k1 : (Option.getD (os₁[i]?.bind fun o => o.inst[c.1]?) ([], 0)).1.length = pr.n := l1
      rw [e1] at k1
      obtain ⟨o₁, o₂, ho, e1, e2⟩ := opens_get h e1 e2
      rw [ho.inst, e1] at e2
      cases e2
      exact refl k1
    · obtain ⟨c, hc, rfl⟩ := hq
      refine ⟨nofun, nofun, getD_alike ?_ hn l1 l2⟩
      intro q₁ q₂ e1 e2
      obtain ⟨o₁, o₂, ho, e1, e2⟩ := opens_get h e1 e2
      exact sub (hp.adv c hc) (hp.advThird _) (ho.advice _ _ _ e1 e2)
    · obtain ⟨c, hc, hq⟩ := hq
      have key : ∀ q₁ q₂, (os₁[i]?.bind fun o => o.permutation[c]?) = some q₁ →
          (os₂[i]?.bind fun o => o.permutation[c]?) = some q₂ → Alike pr T0 q₁ q₂ := by
        intro q₁ q₂ e1 e2
        obtain ⟨o₁, o₂, ho, e1, e2⟩ := opens_get h e1 e2
        exact forall₂_get? ho.permutation e1 e2
      rcases hq with rfl | rfl
      · exact ⟨nofun, nofun, getD_alike (fun _ _ e1 e2 => sub hp.cur hp.third (key _ _ e1 e2)) hn l1 l2⟩
      · exact ⟨nofun, nofun, getD_alike (fun _ _ e1 e2 => sub hp.next hp.third (key _ _ e1 e2)) hn l1 l2⟩
    · obtain ⟨c, hc, rfl⟩ := hq
      refine ⟨nofun, nofun, getD_alike ?_ hn l1 l2⟩
      intro q₁ q₂ e1 e2
      obtain ⟨o₁, o₂, ho, e1, e2⟩ := opens_get h e1 e2
      exact sub hp.last hp.third (forall₂_get? ho.permutation e1 e2)
    · obtain ⟨c, hc, hq⟩ := hq
      have key : ∀ (π : (List F × F) × (List F × F) × (List F × F) → List F × F),
          (∀ a b : (List F × F) × (List F × F) × (List F × F), (Alike pr T0 a.1 b.1 ∧
            Alike pr T0 a.2.1 b.2.1 ∧ Alike pr T0 a.2.2 b.2.2) → Alike pr T0 (π a) (π b)) →
          ∀ q₁ q₂, (os₁[i]?.bind fun o => (o.lookups[c]?).map π) = some q₁ →
          (os₂[i]?.bind fun o => (o.lookups[c]?).map π) = some q₂ → Alike pr T0 q₁ q₂ := by
        intro π hπ q₁ q₂ e1 e2
        obtain ⟨o₁, o₂, ho, e1, e2⟩ := opens_get h e1 e2
        obtain ⟨a, e1', e1''⟩ := Option.map_eq_some_iff.1 e1
        obtain ⟨b, e2', e2''⟩ := Option.map_eq_some_iff.1 e2
        rw [← e1'', ← e2'']
        exact hπ _ _ (forall₂_get? ho.lookups e1' e2')
      have kZ := key (fun q => q.1) fun _ _ h => h.1
      have kA := key (fun q => q.2.1) fun _ _ h => h.2.1
      have kS := key (fun q => q.2.2) fun _ _ h => h.2.2
      rcases hq with rfl | rfl | rfl | rfl | rfl
      · exact ⟨nofun, nofun, getD_alike (fun _ _ e1 e2 => sub hp.cur hp.third (kZ _ _ e1 e2)) hn l1 l2⟩
      · exact ⟨nofun, nofun, getD_alike (fun _ _ e1 e2 => sub hp.cur hp.third (kA _ _ e1 e2)) hn l1 l2⟩
      · exact ⟨nofun, nofun, getD_alike (fun _ _ e1 e2 => sub hp.cur hp.third (kS _ _ e1 e2)) hn l1 l2⟩
      · exact ⟨nofun, nofun, getD_alike (fun _ _ e1 e2 => sub hp.prev hp.third (kA _ _ e1 e2)) hn l1 l2⟩
      · exact ⟨nofun, nofun, getD_alike (fun _ _ e1 e2 => sub hp.next hp.third (kZ _ _ e1 e2)) hn l1 l2⟩
  · obtain ⟨c, hc, rfl⟩ := hq
    exact ⟨nofun, nofun, refl l1⟩
  · obtain ⟨c, hc, rfl⟩ := hq
    exact ⟨nofun, nofun, refl l1⟩

end Open

end Verif.Hiding
