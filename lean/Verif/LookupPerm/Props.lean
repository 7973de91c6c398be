import Verif.LookupPerm.Model
import Mathlib.Data.Multiset.AddSub
import Mathlib.Data.Multiset.Replicate
import Mathlib.Algebra.Order.Group.Multiset
import Mathlib.Tactic.Abel
import Mathlib.Data.List.GetD
import Mathlib.Tactic.NormNum
import Mathlib.Tactic.Ring
import Mathlib.Algebra.Order.Ring.Rat

/-! # C15: the permuted columns of a lookup -/

namespace Verif.LookupPerm

variable {F : Type*} [LinearOrder F] [Zero F]

/-! ### The counting map -/

/-- Keys in strictly increasing order. -/
def Map.Ok (m : Map F) : Prop := m.Pairwise fun p q => p.1 < q.1

omit [Zero F] in
theorem Map.get_none_of_lt {a : F} {m : Map F} (h : ∀ p ∈ m, a < p.1) : Map.get a m = none := by
  induction m with
  | nil => rfl
  | cons p m ih =>
    obtain ⟨k, c⟩ := p
    have := h (k, c) (by simp)
    rw [Map.get, if_neg (ne_of_lt this), ih fun p hp => h p (by simp [hp])]

omit [Zero F] in
theorem Map.inc_spec (a : F) (m : Map F) (hm : m.Ok)
    (hov : (Map.get a m).getD 0 + 1 < 2 ^ 32) :
    ∃ m', Map.inc a m = some m' ∧ m'.Ok ∧ (∀ p ∈ m', p.1 = a ∨ ∃ q ∈ m, q.1 = p.1) ∧
      ∀ b, Map.get b m' = if b = a then some ((Map.get a m).getD 0 + 1) else Map.get b m := by
  induction m with
  | nil =>
    refine ⟨[(a, 1)], rfl, by simp [Map.Ok], by simp, ?_⟩
    intro b
    by_cases h : b = a <;> simp [Map.get, h]
  | cons p m ih =>
    obtain ⟨k, c⟩ := p
    rw [Map.Ok, List.pairwise_cons] at hm
    by_cases h1 : a < k
    · refine ⟨(a, 1) :: (k, c) :: m, by rw [Map.inc, if_pos h1], ?_, ?_, ?_⟩
      · rw [Map.Ok, List.pairwise_cons, List.pairwise_cons]
        refine ⟨?_, hm.1, hm.2⟩
        intro q hq
        rcases List.mem_cons.1 hq with rfl | hq
        · exact h1
        · exact h1.trans (hm.1 q hq)
      · intro p hp
        rcases List.mem_cons.1 hp with rfl | hp
        · exact .inl rfl
        · exact .inr ⟨p, hp, rfl⟩
      · intro b
        have hnone : Map.get a ((k, c) :: m) = none := by
          apply Map.get_none_of_lt
          intro q hq
          rcases List.mem_cons.1 hq with rfl | hq
          · exact h1
          · exact h1.trans (hm.1 q hq)
        rw [hnone, Map.get]
        by_cases hb : b = a <;> simp [hb]
    · by_cases h2 : a = k
      · subst h2
        rw [Map.get, if_pos rfl, Option.getD_some] at hov
        refine ⟨(a, c + 1) :: m, by rw [Map.inc, if_neg h1, if_pos rfl, if_pos hov], ?_, ?_, ?_⟩
        · rw [Map.Ok, List.pairwise_cons]
          exact hm
        · intro p hp
          rcases List.mem_cons.1 hp with rfl | hp
          · exact .inl rfl
          · exact .inr ⟨p, by simp [hp], rfl⟩
        · intro b
          by_cases hb : b = a <;> simp [Map.get, hb]
      · have hget : Map.get a ((k, c) :: m) = Map.get a m := by rw [Map.get, if_neg h2]
        rw [hget] at hov ⊢
        obtain ⟨m', e1, e2, e3, e4⟩ := ih hm.2 hov
        refine ⟨(k, c) :: m', by rw [Map.inc, if_neg h1, if_neg h2, e1, Option.map_some], ?_, ?_, ?_⟩
        · rw [Map.Ok, List.pairwise_cons]
          refine ⟨?_, e2⟩
          intro q hq
          rcases e3 q hq with h | ⟨r, hr, h⟩
          · rw [h]; exact lt_of_le_of_ne (not_lt.1 h1) (Ne.symm h2)
          · rw [← h]; exact hm.1 r hr
        · intro p hp
          rcases List.mem_cons.1 hp with rfl | hp
          · exact .inr ⟨(k, c), by simp, rfl⟩
          · rcases e3 p hp with h | ⟨r, hr, h⟩
            · exact .inl h
            · exact .inr ⟨r, by simp [hr], h⟩
        · intro b
          rw [Map.get, e4, Map.get]
          by_cases hb : b = k
          · subst hb; simp [Ne.symm h2]
          · simp [hb]

omit [Zero F] in
/-- Counting never overflows on fewer than `2^32` rows, and counts. -/
theorem countTable_spec (l : List F) :
    ∀ (m : Map F), m.Ok → (∀ b, (Map.get b m).getD 0 + l.count b < 2 ^ 32) →
      (∀ b, Map.get b m ≠ some 0) →
      ∃ m', countTable l m = some m' ∧ m'.Ok ∧ (∀ b, Map.get b m' ≠ some 0) ∧
        ∀ b, (Map.get b m').getD 0 = (Map.get b m).getD 0 + l.count b := by
  induction l with
  | nil => intro m hm _ h0; exact ⟨m, rfl, hm, h0, by simp⟩
  | cons a l ih =>
    intro m hm hov h0
    have ha := hov a
    rw [List.count_cons_self] at ha
    obtain ⟨m1, e1, e2, _, e4⟩ := Map.inc_spec a m hm (by omega)
    have hget : ∀ b, (Map.get b m1).getD 0 + l.count b = (Map.get b m).getD 0 + (a :: l).count b := by
      intro b
      rw [e4 b]
      by_cases hb : b = a
      · subst hb; simp; omega
      · rw [if_neg hb, List.count_cons_of_ne (Ne.symm hb)]
    obtain ⟨m', f1, f2, f3, f4⟩ := ih m1 e2 (fun b => by rw [hget]; exact hov b) (by
      intro b
      rw [e4 b]
      split_ifs
      · simp
      · exact h0 b)
    refine ⟨m', by rw [countTable, e1, Option.bind_some, f1], f2, f3, ?_⟩
    intro b
    rw [f4, hget]

omit [Zero F] in
theorem Map.get_dec (a : F) (m : Map F) (b : F) :
    Map.get b (Map.dec a m) = if b = a then (Map.get a m).map (· - 1) else Map.get b m := by
  induction m with
  | nil => simp [Map.dec, Map.get]
  | cons p m ih =>
    obtain ⟨k, c⟩ := p
    rw [Map.dec]
    by_cases h : a = k
    · subst h
      by_cases hb : b = a <;> simp [Map.get, hb]
    · rw [if_neg h]
      by_cases hb : b = k
      · subst hb
        simp [Map.get, Ne.symm h]
      · rw [Map.get, if_neg hb, ih, Map.get, Map.get, if_neg h, if_neg hb]

omit [Zero F] in
theorem Map.dec_ok (a : F) (m : Map F) (hm : m.Ok) : (Map.dec a m).Ok := by
  have hkeys : ∀ (m : Map F), (Map.dec a m).map Prod.fst = m.map Prod.fst := by
    intro m
    induction m with
    | nil => rfl
    | cons p m ih =>
      obtain ⟨k, c⟩ := p
      rw [Map.dec]
      split_ifs <;> simp [ih]
  have hp : ∀ m : Map F, m.Ok ↔ (m.map Prod.fst).Pairwise (· < ·) := by
    intro m; rw [List.pairwise_map]; rfl
  rw [hp, hkeys, ← hp]
  exact hm

omit [Zero F] in
/-- The values iterated over, with multiplicity. -/
theorem count_flatMap (m : Map F) (hm : m.Ok) (b : F) :
    (m.flatMap fun (p : F × ℕ) => List.replicate p.2 p.1).count b = (Map.get b m).getD 0 := by
  induction m with
  | nil => simp [Map.get]
  | cons p m ih =>
    obtain ⟨k, c⟩ := p
    rw [Map.Ok, List.pairwise_cons] at hm
    rw [List.flatMap_cons, List.count_append, ih hm.2, Map.get, List.count_replicate]
    by_cases hb : b = k
    · subst hb
      rw [Map.get_none_of_lt hm.1]
      simp
    · simp [hb, Ne.symm hb]

/-! ### First occurrences -/

/-- The inputs that differ from the previous one. -/
def firsts : Option F → List F → List F
  | _, [] => []
  | prev, a :: as => if prev ≠ some a then a :: firsts (some a) as else firsts (some a) as

omit [Zero F] in
theorem firsts_sorted (as : List F) : ∀ prev : Option F, as.Pairwise (· ≤ ·) →
    (∀ p, prev = some p → ∀ a ∈ as, p ≤ a) →
    (firsts prev as).Pairwise (· < ·) ∧ ∀ p, prev = some p → ∀ d ∈ firsts prev as, p < d := by
  induction as with
  | nil => intro prev _ _; simp [firsts]
  | cons a as ih =>
    intro prev hs hp
    rw [List.pairwise_cons] at hs
    obtain ⟨h1, h2⟩ := ih (some a) hs.2 (by rintro p ⟨⟩ b hb; exact hs.1 b hb)
    rw [firsts]
    by_cases h : prev = some a
    · rw [if_neg (by simpa using h)]
      refine ⟨h1, ?_⟩
      intro p hpp d hd
      rw [h] at hpp
      cases hpp
      exact h2 a rfl d hd
    · rw [if_pos h]
      refine ⟨List.pairwise_cons.2 ⟨fun d hd => h2 a rfl d hd, h1⟩, ?_⟩
      intro p hpp d hd
      have hpa : p < a := lt_of_le_of_ne (hp p hpp a (by simp)) (by rintro rfl; exact h hpp)
      rcases List.mem_cons.1 hd with rfl | hd
      · exact hpa
      · exact hpa.trans (h2 a rfl d hd)

omit [Zero F] in
theorem mem_firsts (as : List F) : ∀ prev : Option F,
    (∀ d ∈ firsts prev as, d ∈ as) ∧ ∀ a ∈ as, prev = some a ∨ a ∈ firsts prev as := by
  induction as with
  | nil => intro prev; simp [firsts]
  | cons a as ih =>
    intro prev
    obtain ⟨h1, h2⟩ := ih (some a)
    rw [firsts]
    split_ifs with h
    · constructor
      · intro d hd
        rcases List.mem_cons.1 hd with rfl | hd
        · simp
        · exact List.mem_cons_of_mem _ (h1 d hd)
      · intro b hb
        rcases List.mem_cons.1 hb with rfl | hb
        · right; simp
        · rcases h2 b hb with he | he
          · cases he; right; simp
          · right; exact List.mem_cons_of_mem _ he
    · simp only [ne_eq, not_not] at h
      constructor
      · intro d hd
        exact List.mem_cons_of_mem _ (h1 d hd)
      · intro b hb
        rcases List.mem_cons.1 hb with rfl | hb
        · exact .inl h
        · rcases h2 b hb with he | he
          · cases he; exact .inl h
          · exact .inr he

/-! ### The pass over the inputs -/

/-- What the pass leaves: `rows` are the rows of repeated inputs, zero in the table column; the
other rows hold the input. -/
structure PassOk (prev : Option F) (row : ℕ) (as : List F) (m : Map F)
    (t : List F) (rows : List ℕ) (m' : Map F) : Prop where
  length : t.length = as.length
  split : (t : Multiset F) = (firsts prev as : Multiset F) + Multiset.replicate rows.length 0
  total : (firsts prev as).length + rows.length = as.length
  nodup : rows.Nodup
  range : ∀ r ∈ rows, row ≤ r ∧ r < row + as.length ∧ t.getD (r - row) 0 = 0
  shape : ∀ i (h : i < as.length), (row + i ∉ rows ∧ t.getD i 0 = as[i]) ∨
    (row + i ∈ rows ∧ (prev :: as.map some)[i]'(by simp; omega) = some as[i])
  mapOk : m'.Ok
  get : ∀ b, Map.get b m' = if b ∈ firsts prev as then (Map.get b m).map (· - 1) else Map.get b m

theorem pass_ok (as : List F) : ∀ (prev : Option F) (row : ℕ) (m : Map F), m.Ok →
    (firsts prev as).Nodup → (∀ d ∈ firsts prev as, Map.get d m ≠ some 0) →
    (∀ d ∈ firsts prev as, Map.get d m ≠ none) →
    ∃ t rows m', pass prev row as m = .ok (t, rows, m') ∧ PassOk prev row as m t rows m' := by
  induction as with
  | nil =>
    intro prev row m hm _ _ _
    exact ⟨[], [], m, rfl, ⟨rfl, rfl, rfl, by simp, by simp, by simp, hm, by simp [firsts]⟩⟩
  | cons a as ih =>
    intro prev row m hm hnd h0 hn
    rw [pass]
    by_cases h : prev = some a
    · rw [if_neg (by simpa using h)]
      have hf : firsts prev (a :: as) = firsts (some a) as := by rw [firsts, if_neg (by simpa using h)]
      rw [hf] at hnd h0 hn
      obtain ⟨t, rows, m', e, ok⟩ := ih (some a) (row + 1) m hm hnd h0 hn
      refine ⟨0 :: t, row :: rows, m', by rw [e]; rfl, ?_⟩
      refine ⟨by simp [ok.length], ?_, ?_, ?_, ?_, ?_, ok.mapOk, ?_⟩
      · rw [hf, ← Multiset.cons_coe, ok.split, List.length_cons, Multiset.replicate_succ,
          Multiset.add_cons]
      · rw [hf]; have := ok.total; simp; omega
      · refine List.nodup_cons.2 ⟨?_, ok.nodup⟩
        intro hr
        have := (ok.range row hr).1
        omega
      · intro r hr
        rcases List.mem_cons.1 hr with rfl | hr
        · simp
        · obtain ⟨p1, p2, p3⟩ := ok.range r hr
          refine ⟨by omega, by simp; omega, ?_⟩
          rw [show r - row = r - (row + 1) + 1 by omega, List.getD_cons_succ]
          exact p3
      · intro i hi
        cases i with
        | zero => right; exact ⟨by simp, by simpa using h⟩
        | succ i =>
          have hi' : i < as.length := by simpa using hi
          rcases ok.shape i hi' with ⟨q1, q2⟩ | ⟨q1, q2⟩
          · left
            refine ⟨?_, by simpa using q2⟩
            intro hmem
            rcases List.mem_cons.1 hmem with hmem | hmem
            · omega
            · exact q1 (by rwa [show row + 1 + i = row + (i + 1) by omega])
          · right
            refine ⟨List.mem_cons_of_mem _ (by rwa [show row + (i + 1) = row + 1 + i by omega]), ?_⟩
            simpa using q2
      · intro b; rw [hf]; exact ok.get b
    · rw [if_pos h]
      have hf : firsts prev (a :: as) = a :: firsts (some a) as := by rw [firsts, if_pos h]
      rw [hf] at hnd h0 hn
      rw [List.nodup_cons] at hnd
      rcases hg : Map.get a m with _ | c
      · exact absurd hg (hn a (by simp))
      · have hc : c ≠ 0 := by
          rintro rfl
          exact h0 a (by simp) hg
        simp only [hc, if_false]
        have hget : ∀ d ∈ firsts (some a) as, Map.get d (Map.dec a m) = Map.get d m := by
          intro d hd
          rw [Map.get_dec, if_neg]
          rintro rfl
          exact hnd.1 hd
        obtain ⟨t, rows, m', e, ok⟩ := ih (some a) (row + 1) (Map.dec a m) (Map.dec_ok a m hm) hnd.2
          (fun d hd => by rw [hget d hd]; exact h0 d (by simp [hd]))
          (fun d hd => by rw [hget d hd]; exact hn d (by simp [hd]))
        refine ⟨a :: t, rows, m', by rw [e]; rfl, ?_⟩
        refine ⟨by simp [ok.length], ?_, ?_, ok.nodup, ?_, ?_, ok.mapOk, ?_⟩
        · rw [hf, ← Multiset.cons_coe, ok.split, ← Multiset.cons_coe, Multiset.cons_add]
        · rw [hf]; have := ok.total; simp; omega
        · intro r hr
          obtain ⟨p1, p2, p3⟩ := ok.range r hr
          refine ⟨by omega, by simp; omega, ?_⟩
          rw [show r - row = r - (row + 1) + 1 by omega, List.getD_cons_succ]
          exact p3
        · intro i hi
          cases i with
          | zero =>
            left
            refine ⟨?_, by simp⟩
            intro hr
            have := (ok.range _ hr).1
            omega
          | succ i =>
            have hi' : i < as.length := by simpa using hi
            rcases ok.shape i hi' with ⟨q1, q2⟩ | ⟨q1, q2⟩
            · left
              refine ⟨by rwa [show row + (i + 1) = row + 1 + i by omega], by simpa using q2⟩
            · right
              refine ⟨by rwa [show row + (i + 1) = row + 1 + i by omega], ?_⟩
              simpa using q2
        · intro b
          rw [ok.get b, hf, Map.get_dec]
          by_cases hb : b = a
          · subst hb
            simp [hnd.1]
          · simp [hb]

theorem pass_error (as : List F) : ∀ (prev : Option F) (row : ℕ) (m : Map F),
    (firsts prev as).Nodup → (∀ d ∈ firsts prev as, Map.get d m ≠ some 0) →
    (∃ d ∈ firsts prev as, Map.get d m = none) →
    pass prev row as m = .error .constraintSystemFailure := by
  induction as with
  | nil => intro prev row m _ _ ⟨d, hd, _⟩; simp [firsts] at hd
  | cons a as ih =>
    intro prev row m hnd h0 hn
    rw [pass]
    by_cases h : prev = some a
    · rw [if_neg (by simpa using h)]
      have hf : firsts prev (a :: as) = firsts (some a) as := by rw [firsts, if_neg (by simpa using h)]
      rw [hf] at hnd h0 hn
      rw [ih (some a) (row + 1) m hnd h0 hn]
      rfl
    · rw [if_pos h]
      have hf : firsts prev (a :: as) = a :: firsts (some a) as := by rw [firsts, if_pos h]
      rw [hf] at hnd h0 hn
      rw [List.nodup_cons] at hnd
      rcases hg : Map.get a m with _ | c
      · rfl
      · have hc : c ≠ 0 := by
          rintro rfl
          exact h0 a (by simp) hg
        simp only [hc, if_false]
        have hget : ∀ d ∈ firsts (some a) as, Map.get d (Map.dec a m) = Map.get d m := by
          intro d hd
          rw [Map.get_dec, if_neg]
          rintro rfl
          exact hnd.1 hd
        rw [ih (some a) (row + 1) (Map.dec a m) hnd.2
          (fun d hd => by rw [hget d hd]; exact h0 d (by simp [hd])) ?_]
        · rfl
        · obtain ⟨d, hd, hdn⟩ := hn
          rcases List.mem_cons.1 hd with rfl | hd
          · rw [hg] at hdn; simp at hdn
          · exact ⟨d, hd, by rw [hget d hd]; exact hdn⟩

/-! ### Filling the repeated rows -/

omit [LinearOrder F] in
theorem coe_set (t : List F) (r : ℕ) (v : F) (h : r < t.length) :
    ((t.set r v : List F) : Multiset F) + {t.getD r 0} = (t : Multiset F) + {v} := by
  induction t generalizing r with
  | nil => simp at h
  | cons a t ih =>
    cases r with
    | zero =>
      simp only [List.set_cons_zero, List.getD_cons_zero, ← Multiset.cons_coe]
      rw [← Multiset.singleton_add, ← Multiset.singleton_add]
      abel
    | succ r =>
      simp only [List.set_cons_succ, List.getD_cons_succ, ← Multiset.cons_coe]
      rw [Multiset.cons_add, Multiset.cons_add, ih r (by simpa using h)]

omit [LinearOrder F] in
theorem fill_spec (vs : List F) : ∀ (rows : List ℕ) (t : List F), rows.Nodup →
    (∀ r ∈ rows, r < t.length ∧ t.getD r 0 = 0) → rows.length = vs.length →
    ∃ t', fill vs rows t = .ok t' ∧ t'.length = t.length ∧
      (∀ i, i ∉ rows → t'.getD i 0 = t.getD i 0) ∧
      (t' : Multiset F) + Multiset.replicate rows.length 0 = (t : Multiset F) + (vs : Multiset F) := by
  induction vs with
  | nil =>
    intro rows t _ _ hl
    have : rows = [] := List.eq_nil_of_length_eq_zero hl
    subst this
    exact ⟨t, by simp [fill], rfl, by simp, by simp⟩
  | cons v vs ih =>
    intro rows t hnd hr hl
    obtain ⟨rs, r, rfl⟩ : ∃ rs r, rows = rs ++ [r] := by
      rcases List.eq_nil_or_concat rows with h | ⟨rs, r, h⟩
      · subst h; simp at hl
      · exact ⟨rs, r, by simpa using h⟩
    have hr0 := hr r (by simp)
    rw [List.nodup_append] at hnd
    have hrs : r ∉ rs := fun hmem => hnd.2.2 r hmem r (by simp) rfl
    obtain ⟨t', e1, e2, e3, e4⟩ := ih rs (t.set r v) hnd.1 (by
      intro s hs
      obtain ⟨p1, p2⟩ := hr s (by simp [hs])
      refine ⟨by simpa using p1, ?_⟩
      have hne : r ≠ s := by rintro rfl; exact hrs hs
      rw [List.getD_eq_getElem?_getD, List.getElem?_set_ne hne, ← List.getD_eq_getElem?_getD]
      exact p2) (by simp at hl; omega)
    refine ⟨t', ?_, by simpa using e2, ?_, ?_⟩
    · rw [fill]
      simp only [List.getLast?_append, List.getLast?_singleton, Option.some_or, List.dropLast_concat,
        hr0.1, if_true]
      exact e1
    · intro i hi
      simp only [List.mem_append, List.mem_singleton, not_or] at hi
      rw [e3 i hi.1, List.getD_eq_getElem?_getD, List.getElem?_set_ne (Ne.symm hi.2),
        ← List.getD_eq_getElem?_getD]
    · have hs := coe_set t r v hr0.1
      rw [hr0.2] at hs
      rw [List.length_append, List.length_singleton, Multiset.replicate_succ, ← Multiset.singleton_add,
        add_comm {0}, ← add_assoc, e4, add_right_comm, hs, ← Multiset.cons_coe, add_assoc,
        Multiset.singleton_add]

/-! ### The whole function -/

theorem sorted_ok (l : List F) : (l.insertionSort (· ≤ ·)).Pairwise (· ≤ ·) :=
  List.pairwise_insertionSort _ _

/-- C15: on columns of `n` rows (fewer than `2^32` of them usable), `permute_expression_pair`
returns `ConstraintSystemFailure` exactly when some input value on a usable row does not occur in
the usable part of the table; otherwise it returns two columns of `n` rows whose usable parts
rearrange the input and the table, such that the first rows agree and each further row agrees
with the table or with the row above.  It never panics. -/
theorem permute_spec (n bf : ℕ) (hbf : bf + 1 ≤ n) (hn : n - (bf + 1) < 2 ^ 32)
    (randIn randTab : ℕ → F) (input table : List F) (hi : input.length = n)
    (ht : table.length = n) :
    let u := n - (bf + 1)
    ((∀ a ∈ input.take u, a ∈ table.take u) ∧
      ∃ a' s', permuteExpressionPair n bf randIn randTab input table = .ok (a', s') ∧
        a'.length = n ∧ s'.length = n ∧
        (a'.take u).Perm (input.take u) ∧ (s'.take u).Perm (table.take u) ∧
        (0 < u → a'.getD 0 0 = s'.getD 0 0) ∧
        (∀ i, i + 1 < u → a'.getD (i + 1) 0 = s'.getD (i + 1) 0 ∨
          a'.getD (i + 1) 0 = a'.getD i 0) ∧
        (∀ i ≤ bf, a'.getD (u + i) 0 = randIn i ∧ s'.getD (u + i) 0 = randTab i)) ∨
    ((∃ a ∈ input.take u, a ∉ table.take u) ∧
      permuteExpressionPair n bf randIn randTab input table = .error .constraintSystemFailure) := by
  intro u
  have hul : (input.take u).length = u := by simp [hi, u]
  have htl : (table.take u).length = u := by simp [ht, u]
  set A := (input.take u).insertionSort (· ≤ ·) with hA
  have hAperm : A.Perm (input.take u) := List.perm_insertionSort _ _
  have hAlen : A.length = u := by rw [hAperm.length_eq, hul]
  have hAs : A.Pairwise (· ≤ ·) := sorted_ok _
  obtain ⟨m, c1, c2, c3, c4⟩ := countTable_spec (table.take u) [] (by simp [Map.Ok]) (by
    intro b
    have := List.count_le_length (a := b) (l := table.take u)
    simp only [Map.get, Option.getD_none, zero_add]
    omega) (by simp [Map.get])
  have hcount : ∀ b, (Map.get b m).getD 0 = (table.take u).count b := by
    intro b; rw [c4]; simp [Map.get]
  have hmemT : ∀ b, Map.get b m ≠ none ↔ b ∈ table.take u := by
    intro b
    rw [← List.count_pos_iff, ← hcount]
    rcases hg : Map.get b m with _ | c
    · simp
    · have : c ≠ 0 := by rintro rfl; exact c3 b hg
      simp; omega
  have hfs := firsts_sorted A none hAs (by simp)
  have hnd : (firsts none A).Nodup := hfs.1.imp fun h => ne_of_lt h
  have hmemF : ∀ b, b ∈ firsts none A ↔ b ∈ input.take u := by
    intro b
    obtain ⟨p1, p2⟩ := mem_firsts A none
    rw [← hAperm.mem_iff]
    exact ⟨p1 b, fun hb => (p2 b hb).resolve_left (by simp)⟩
  have h0 : ∀ d ∈ firsts none A, Map.get d m ≠ some 0 := fun d _ => c3 d
  by_cases hall : ∀ a ∈ input.take u, a ∈ table.take u
  · left
    refine ⟨hall, ?_⟩
    obtain ⟨t, rows, m', e, ok⟩ := pass_ok A none 0 m c2 hnd h0
      fun d hd => (hmemT d).2 (hall d ((hmemF d).1 hd))
    have htlen : t.length = u := by rw [ok.length, hAlen]
    set L := m'.flatMap fun (p : F × ℕ) => List.replicate p.2 p.1 with hL
    -- leftovers and first occurrences make up the table
    have hDL : (firsts none A : Multiset F) + (L : Multiset F) = ((table.take u : List F) : Multiset F) := by
      ext b
      rw [Multiset.count_add, Multiset.coe_count, Multiset.coe_count, Multiset.coe_count, hL,
        count_flatMap m' ok.mapOk, ok.get b]
      have hb := hcount b
      by_cases hbf : b ∈ firsts none A
      · rw [if_pos hbf, List.count_eq_one_of_mem hnd hbf]
        have hne := (hmemT b).2 (hall b ((hmemF b).1 hbf))
        rcases hg : Map.get b m with _ | c
        · exact absurd hg hne
        · have : c ≠ 0 := by rintro rfl; exact c3 b hg
          rw [hg] at hb
          simp at hb ⊢
          omega
      · rw [if_neg hbf, List.count_eq_zero_of_not_mem hbf, hb, zero_add]
    have hlen : rows.length = L.length := by
      have h1 := congrArg Multiset.card hDL
      simp only [Multiset.card_add, Multiset.coe_card] at h1
      have h2 := ok.total
      omega
    obtain ⟨t', f1, f2, f3, f4⟩ := fill_spec L rows t ok.nodup (by
      intro r hr
      obtain ⟨_, p2, p3⟩ := ok.range r hr
      exact ⟨by rw [ok.length]; omega, by simpa using p3⟩) hlen
    have ht'len : t'.length = u := by rw [f2, htlen]
    have hperm : t'.Perm (table.take u) := by
      rw [← Multiset.coe_eq_coe, ← hDL]
      rw [ok.split, add_right_comm] at f4
      exact add_right_cancel f4
    have hrun : permuteExpressionPair n bf randIn randTab input table
        = .ok (A ++ (List.range (bf + 1)).map randIn, t' ++ (List.range (bf + 1)).map randTab) := by
      rw [permuteExpressionPair, if_neg (by omega)]
      simp only [show n - (bf + 1) = u from rfl, c1, ← hA, e]
      simp only [Except.bind, htlen, Nat.sub_self, List.replicate_zero, List.append_nil]
      rw [show fill (m'.flatMap fun (x : F × ℕ) => match x with
        | (a, c) => List.replicate c a) rows t = .ok t' from f1]
      simp only
      rw [if_neg]
      simp [hAlen, ht'len]
      omega
    refine ⟨_, _, hrun, by simp [hAlen]; omega, by simp [ht'len]; omega, ?_, ?_, ?_, ?_, ?_⟩
    · rw [List.take_append_of_le_length (by omega), List.take_of_length_le (by omega)]
      exact hAperm
    · rw [List.take_append_of_le_length (by omega), List.take_of_length_le (by omega)]
      exact hperm
    · intro hu
      rw [List.getD_append _ _ _ _ (by omega), List.getD_append _ _ _ _ (by omega)]
      rcases ok.shape 0 (by omega) with ⟨q1, q2⟩ | ⟨_, q2⟩
      · rw [f3 0 (by simpa using q1), q2, List.getD_eq_getElem _ _ (by omega)]
      · simp at q2
    · intro i hiu
      rw [List.getD_append _ _ _ _ (by omega), List.getD_append _ _ _ _ (by omega),
        List.getD_append _ _ _ _ (by omega)]
      rcases ok.shape (i + 1) (by omega) with ⟨q1, q2⟩ | ⟨_, q2⟩
      · left
        rw [f3 (i + 1) (by simpa using q1), q2, List.getD_eq_getElem _ _ (by omega)]
      · right
        simp only [List.getElem_cons_succ, List.getElem_map, Option.some.injEq] at q2
        rw [List.getD_eq_getElem _ _ (by omega), List.getD_eq_getElem _ _ (by omega), q2]
    · intro i hib
      rw [List.getD_append_right _ _ _ _ (by omega), List.getD_append_right _ _ _ _ (by omega),
        hAlen, ht'len, Nat.add_sub_cancel_left, List.getD_eq_getElem _ _ (by simp; omega),
        List.getD_eq_getElem _ _ (by simp; omega)]
      simp
  · right
    push Not at hall
    refine ⟨hall, ?_⟩
    obtain ⟨a, ha, hat⟩ := hall
    have herr := pass_error A none 0 m hnd h0 ⟨a, (hmemF a).2 ha, by
      by_contra hne
      exact hat ((hmemT a).1 hne)⟩
    rw [permuteExpressionPair, if_neg (by omega)]
    simp only [show n - (bf + 1) = u from rfl, c1, ← hA, herr]
    rfl

/-- Success decided by membership alone. -/
theorem permute_ok_iff (n bf : ℕ) (hbf : bf + 1 ≤ n) (hn : n - (bf + 1) < 2 ^ 32)
    (randIn randTab : ℕ → F) (input table : List F) (hi : input.length = n)
    (ht : table.length = n) :
    (∃ r, permuteExpressionPair n bf randIn randTab input table = .ok r) ↔
      ∀ a ∈ input.take (n - (bf + 1)), a ∈ table.take (n - (bf + 1)) := by
  rcases permute_spec n bf hbf hn randIn randTab input table hi ht with
    ⟨h, a', s', h1, _⟩ | ⟨⟨a, h1, h2⟩, h3⟩
  · exact ⟨fun _ => h, fun _ => ⟨_, h1⟩⟩
  · constructor
    · rintro ⟨r, hr⟩; rw [h3] at hr; simp at hr
    · intro h; exact absurd (h a h1) h2

example : permuteExpressionPair 6 1 (fun _ => 9) (fun _ => 8) [3, 1, 3, 3, 0, 0] [1, 3, 5, 3, 7, 7]
    = .ok (([1, 3, 3, 3, 9, 9] : List ℚ), [1, 3, 5, 3, 8, 8]) := by decide +kernel

example : permuteExpressionPair 6 1 (fun _ => 9) (fun _ => 8) [3, 1, 3, 7, 0, 0] [1, 3, 5, 3, 7, 7]
    = (.error .constraintSystemFailure : Except Err (List ℚ × List ℚ)) := by decide +kernel

end Verif.LookupPerm
