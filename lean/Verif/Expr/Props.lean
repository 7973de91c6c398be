import Verif.Expr.Model
import Verif.Evaluator.Props
import Mathlib.Algebra.Order.Ring.Rat
import Mathlib.Algebra.Polynomial.Eval.Degree
import Mathlib.Tactic.Ring

/-! # C47: expressions evaluate and rewrite consistently -/

namespace Verif.Expr

variable {F : Type*}

/-! ### Specification -/

/-- Values of the selectors and queries of an expression. -/
structure Env (R : Type*) where
  sel : Sel → R
  fixed : Query → R
  advice : Query → R
  inst : Query → R

/-- The polynomial function an expression denotes, over any commutative ring into which the
constants embed by `emb`. -/
def Expr.value {R : Type*} [CommRing R] (emb : F → R) (v : Env R) : Expr F → R
  | .constant c => emb c
  | .selector s => v.sel s
  | .fixed q => v.fixed q
  | .advice q => v.advice q
  | .inst q => v.inst q
  | .negated a => -a.value emb v
  | .sum a b => a.value emb v + b.value emb v
  | .product a b => a.value emb v * b.value emb v
  | .scaled a f => a.value emb v * emb f

/-- The selectors occurring in an expression, with repetition. -/
def Expr.sels : Expr F → List Sel
  | .constant _ => []
  | .selector s => [s]
  | .fixed _ => []
  | .advice _ => []
  | .inst _ => []
  | .negated a => a.sels
  | .sum a b => a.sels ++ b.sels
  | .product a b => a.sels ++ b.sels
  | .scaled a _ => a.sels

/-- Expressions that arise from leaves by the operators `-a`, `a + b`, `a - b`, `a * b`, `a * f`,
none of which panicked. -/
inductive Built : Expr F → Prop
  | constant c : Built (.constant c)
  | selector s : Built (.selector s)
  | fixed q : Built (.fixed q)
  | advice q : Built (.advice q)
  | inst q : Built (.inst q)
  | neg {a} : Built a → Built a.neg
  | add {a b e} : Built a → Built b → a.add b = some e → Built e
  | sub {a b e} : Built a → Built b → a.sub b = some e → Built e
  | mul {a b e} : Built a → Built b → a.mul b = some e → Built e
  | scale {a f} : Built a → Built (a.scale f)

/-! ### Evaluation -/

/-- `evaluate` with ring operations computes the value. -/
theorem evaluate_ring {R : Type*} [CommRing R] (emb : F → R) (v : Env R) (e : Expr F) :
    e.evaluate ⟨emb, v.sel, v.fixed, v.advice, v.inst, fun a => -a, fun a b => a + b,
      fun a b => a * b, fun a f => a * emb f⟩ = e.value emb v := by
  induction e <;> simp_all [Expr.evaluate, Expr.value]

/-- `evaluate` commutes with every map that respects the closures.  In particular evaluating the
prover's polynomials and then taking their values at a point is evaluating at that point, as the
verifier does. -/
theorem evaluate_map {T U : Type*} (φ : T → U) (g : Alg F T) (h : Alg F U)
    (hc : ∀ c, φ (g.constant c) = h.constant c) (hs : ∀ s, φ (g.selector s) = h.selector s)
    (hf : ∀ q, φ (g.fixed q) = h.fixed q) (ha : ∀ q, φ (g.advice q) = h.advice q)
    (hi : ∀ q, φ (g.inst q) = h.inst q) (hn : ∀ a, φ (g.negated a) = h.negated (φ a))
    (hadd : ∀ a b, φ (g.sum a b) = h.sum (φ a) (φ b))
    (hmul : ∀ a b, φ (g.product a b) = h.product (φ a) (φ b))
    (hsc : ∀ a f, φ (g.scaled a f) = h.scaled (φ a) f) (e : Expr F) :
    φ (e.evaluate g) = e.evaluate h := by
  induction e <;> simp_all [Expr.evaluate]

theorem value_map {R S : Type*} [CommRing R] [CommRing S] (φ : R →+* S) (emb : F → R) (v : Env R)
    (e : Expr F) :
    φ (e.value emb v) = e.value (φ ∘ emb) ⟨φ ∘ v.sel, φ ∘ v.fixed, φ ∘ v.advice, φ ∘ v.inst⟩ := by
  induction e <;> simp_all [Expr.value]

/-- The value at `x` of the polynomial of an expression is the expression of the values at `x`. -/
theorem value_eval [CommRing F] (v : Env (Polynomial F)) (x : F) (e : Expr F) :
    (e.value Polynomial.C v).eval x =
      e.value id ⟨fun s => (v.sel s).eval x, fun q => (v.fixed q).eval x,
        fun q => (v.advice q).eval x, fun q => (v.inst q).eval x⟩ := by
  have h := value_map (Polynomial.evalRingHom x) Polynomial.C v e
  simp only [Polynomial.coe_evalRingHom] at h
  rw [h]
  congr 1
  funext c
  simp

/-- `degree` bounds the degree of the polynomial of an expression. -/
theorem degree_bound [CommRing F] (v : Env (Polynomial F)) (d : ℕ)
    (hs : ∀ s, (v.sel s).natDegree ≤ d) (hf : ∀ q, (v.fixed q).natDegree ≤ d)
    (ha : ∀ q, (v.advice q).natDegree ≤ d) (hi : ∀ q, (v.inst q).natDegree ≤ d) (e : Expr F) :
    (e.value Polynomial.C v).natDegree ≤ e.degree * d := by
  induction e with
  | constant c => simp [Expr.value, Expr.degree]
  | selector s => simpa [Expr.value, Expr.degree] using hs s
  | fixed s => simpa [Expr.value, Expr.degree] using hf s
  | advice s => simpa [Expr.value, Expr.degree] using ha s
  | inst s => simpa [Expr.value, Expr.degree] using hi s
  | negated a ih => simpa [Expr.value, Expr.degree] using ih
  | sum a b iha ihb =>
    refine (Polynomial.natDegree_add_le _ _).trans (max_le ?_ ?_)
    · exact iha.trans (Nat.mul_le_mul_right _ (le_max_left _ _))
    · exact ihb.trans (Nat.mul_le_mul_right _ (le_max_right _ _))
  | product a b iha ihb =>
    refine Polynomial.natDegree_mul_le.trans ?_
    rw [Expr.degree, Nat.add_mul]
    exact Nat.add_le_add iha ihb
  | scaled a f ih =>
    refine Polynomial.natDegree_mul_le.trans ?_
    rw [Polynomial.natDegree_C, Nat.add_zero]
    exact ih

/-- The bound is attained by products of queries. -/
theorem degree_exact [Field F] (d : ℕ) (qs : List Query) :
    let e : Expr F := qs.foldr (fun q e => .product (.advice q) e) (.constant 1)
    (e.value Polynomial.C ⟨fun _ => Polynomial.X ^ d, fun _ => Polynomial.X ^ d,
      fun _ => Polynomial.X ^ d, fun _ => Polynomial.X ^ d⟩).natDegree = e.degree * d := by
  intro e
  have hval : e.value Polynomial.C ⟨fun _ => Polynomial.X ^ d, fun _ => Polynomial.X ^ d,
      fun _ => Polynomial.X ^ d, fun _ => Polynomial.X ^ d⟩
      = (Polynomial.X : Polynomial F) ^ (qs.length * d) := by
    simp only [e]
    induction qs with
    | nil => simp [Expr.value]
    | cons q qs ih =>
      simp only [List.foldr_cons, Expr.value, List.length_cons] at ih ⊢
      rw [ih]
      ring
  have hdeg : e.degree = qs.length := by
    clear hval
    simp only [e]
    induction qs with
    | nil => rfl
    | cons q qs ih =>
      simp only [List.foldr_cons, Expr.degree, List.length_cons] at ih ⊢
      rw [ih]
      omega
  rw [hval, hdeg, Polynomial.natDegree_X_pow]

/-! ### Simple selectors -/

theorem containsSimple_iff (e : Expr F) :
    e.containsSimple = true ↔ ∃ s ∈ e.sels, s.simple = true := by
  induction e with
  | constant | fixed | advice | inst => simp [Expr.containsSimple, Expr.evaluate, Expr.sels]
  | selector s => simp [Expr.containsSimple, Expr.evaluate, Expr.sels]
  | negated a ih => exact ih
  | scaled a f ih => exact ih
  | sum a b iha ihb =>
    change (a.containsSimple || b.containsSimple) = true ↔ _
    rw [Bool.or_eq_true, iha, ihb]
    simp [Expr.sels, or_and_right, exists_or]
  | product a b iha ihb =>
    change (a.containsSimple || b.containsSimple) = true ↔ _
    rw [Bool.or_eq_true, iha, ihb]
    simp [Expr.sels, or_and_right, exists_or]

theorem containsSimple_iff' (e : Expr F) :
    e.containsSimple = true ↔ e.sels.filter (·.simple) ≠ [] := by
  rw [containsSimple_iff, Ne, List.filter_eq_nil_iff]
  push Not
  simp

theorem not_containsSimple_iff (e : Expr F) :
    e.containsSimple = false ↔ e.sels.filter (·.simple) = [] := by
  rw [← Bool.not_eq_true, containsSimple_iff', not_not]

/-- `extract_simple_selector` panics exactly on two occurrences of simple selectors; otherwise it
returns the one occurring, if any. -/
theorem extractSimple_spec (e : Expr F) :
    e.extractSimple = match e.sels.filter (·.simple) with
      | [] => some none
      | [s] => some (some s)
      | _ => none := by
  have hop : ∀ l m : List Sel, extractOp
      (match l with | [] => some none | [s] => some (some s) | _ => none)
      (match m with | [] => some none | [s] => some (some s) | _ => none)
      = (match l ++ m with | [] => some none | [s] => some (some s) | _ => none) := by
    intro l m
    rcases l with _ | ⟨a, _ | ⟨b, l⟩⟩ <;> rcases m with _ | ⟨c, _ | ⟨d, m⟩⟩ <;> simp [extractOp]
  induction e with
  | constant | fixed | advice | inst => rfl
  | selector s =>
    by_cases h : s.simple = true
    · simp [Expr.extractSimple, Expr.evaluate, Expr.sels, h]
    · simp [Expr.extractSimple, Expr.evaluate, Expr.sels, h]
  | negated a ih => exact ih
  | scaled a f ih => exact ih
  | sum a b iha ihb =>
    rw [Expr.sels, List.filter_append, ← hop, ← iha, ← ihb]
    rfl
  | product a b iha ihb =>
    rw [Expr.sels, List.filter_append, ← hop, ← iha, ← ihb]
    rfl

/-- Addition panics exactly when a simple selector occurs, and denotes the sum. -/
theorem add_spec {R : Type*} [CommRing R] (emb : F → R) (v : Env R) (a b : Expr F) :
    (a.add b = none ↔ ∃ s ∈ a.sels ++ b.sels, s.simple = true) ∧
      ∀ e, a.add b = some e → e.value emb v = a.value emb v + b.value emb v := by
  constructor
  · rw [Expr.add]
    simp only [ite_eq_left_iff, Bool.or_eq_true, reduceCtorEq, imp_false, not_not,
      containsSimple_iff, List.mem_append, or_and_right, exists_or]
  · intro e h
    rw [Expr.add] at h
    split_ifs at h
    cases h
    rfl

theorem sub_spec {R : Type*} [CommRing R] (emb : F → R) (v : Env R) (a b : Expr F) :
    (a.sub b = none ↔ ∃ s ∈ a.sels ++ b.sels, s.simple = true) ∧
      ∀ e, a.sub b = some e → e.value emb v = a.value emb v - b.value emb v := by
  constructor
  · rw [Expr.sub]
    simp only [ite_eq_left_iff, Bool.or_eq_true, reduceCtorEq, imp_false, not_not,
      containsSimple_iff, List.mem_append, or_and_right, exists_or]
  · intro e h
    rw [Expr.sub] at h
    split_ifs at h
    cases h
    simp [Expr.value, Expr.neg, sub_eq_add_neg]

/-- Multiplication panics exactly when a simple selector occurs on both sides, and denotes the
product. -/
theorem mul_spec {R : Type*} [CommRing R] (emb : F → R) (v : Env R) (a b : Expr F) :
    (a.mul b = none ↔ (∃ s ∈ a.sels, s.simple = true) ∧ ∃ s ∈ b.sels, s.simple = true) ∧
      ∀ e, a.mul b = some e → e.value emb v = a.value emb v * b.value emb v := by
  constructor
  · rw [Expr.mul]
    simp only [ite_eq_left_iff, Bool.and_eq_true, reduceCtorEq, imp_false, not_not,
      containsSimple_iff]
  · intro e h
    rw [Expr.mul] at h
    split_ifs at h
    cases h
    rfl

theorem neg_scale_spec {R : Type*} [CommRing R] (emb : F → R) (v : Env R) (a : Expr F) (f : F) :
    a.neg.value emb v = -a.value emb v ∧ (a.scale f).value emb v = a.value emb v * emb f :=
  ⟨rfl, rfl⟩

/-- Squaring denotes the square and panics exactly on an expression with a simple selector. -/
theorem square_spec {R : Type*} [CommRing R] (emb : F → R) (v : Env R) (a : Expr F) :
    (a.square = none ↔ ∃ s ∈ a.sels, s.simple = true) ∧
      ∀ e, a.square = some e → e.value emb v = a.value emb v ^ 2 := by
  obtain ⟨h1, h2⟩ := mul_spec emb v a a
  refine ⟨by rw [Expr.square, h1, and_self], ?_⟩
  intro e h
  rw [h2 e h, sq]

/-- In an expression built with the operators, at most one occurrence of a simple selector, so
`extract_simple_selector` does not panic; and the expression is that selector times a factor in
which no simple selector occurs. -/
theorem built_spec {R : Type*} [CommRing R] (emb : F → R) {e : Expr F} (hb : Built e) :
    (e.sels.filter (·.simple)).length ≤ 1 ∧
      ∀ s ∈ e.sels, s.simple = true →
        ∃ f : Env R → R, (∀ v, e.value emb v = v.sel s * f v) ∧
          ∀ v w : Env R, (∀ t, t.simple = false → v.sel t = w.sel t) → v.fixed = w.fixed →
            v.advice = w.advice → v.inst = w.inst → f v = f w := by
  have hindep : ∀ e : Expr F, e.sels.filter (·.simple) = [] →
      ∀ v w : Env R, (∀ t, t.simple = false → v.sel t = w.sel t) → v.fixed = w.fixed →
            v.advice = w.advice → v.inst = w.inst → e.value emb v = e.value emb w := by
    intro e
    induction e with
    | constant c => intros; rfl
    | selector s =>
      intro h v w hvw _ _ _
      apply hvw
      simpa [Expr.sels] using h
    | fixed q => intro _ v w _ h _ _; simp [Expr.value, h]
    | advice q => intro _ v w _ _ h _; simp [Expr.value, h]
    | inst q => intro _ v w _ _ _ h; simp [Expr.value, h]
    | negated a ih => intro h v w h1 h2 h3 h4; simp [Expr.value, ih h v w h1 h2 h3 h4]
    | scaled a f ih => intro h v w h1 h2 h3 h4; simp [Expr.value, ih h v w h1 h2 h3 h4]
    | sum a b iha ihb =>
      intro h v w h1 h2 h3 h4
      simp only [Expr.sels, List.filter_append, List.append_eq_nil_iff] at h
      simp [Expr.value, iha h.1 v w h1 h2 h3 h4, ihb h.2 v w h1 h2 h3 h4]
    | product a b iha ihb =>
      intro h v w h1 h2 h3 h4
      simp only [Expr.sels, List.filter_append, List.append_eq_nil_iff] at h
      simp [Expr.value, iha h.1 v w h1 h2 h3 h4, ihb h.2 v w h1 h2 h3 h4]
  have hno : ∀ (e : Expr F) (s : Sel), e.sels.filter (·.simple) = [] → s ∈ e.sels →
      s.simple = true → False := by
    intro e s h hs hss
    rw [List.filter_eq_nil_iff] at h
    exact h s hs hss
  induction hb with
  | constant | fixed | advice | inst => simp [Expr.sels]
  | selector s =>
    refine ⟨by simp only [Expr.sels, List.filter_cons, List.filter_nil]; split_ifs <;> simp, ?_⟩
    intro t ht _
    simp only [Expr.sels, List.mem_singleton] at ht
    subst ht
    exact ⟨fun _ => 1, fun v => by simp [Expr.value], fun _ _ _ _ _ _ => rfl⟩
  | neg _ ih =>
    refine ⟨ih.1, ?_⟩
    intro s hs hss
    obtain ⟨f, h1, h2⟩ := ih.2 s hs hss
    exact ⟨fun v => -f v, fun v => by simp [Expr.neg, Expr.value, h1], fun v w a b c d => by
      simp only; rw [h2 v w a b c d]⟩
  | @scale a c _ ih =>
    refine ⟨ih.1, ?_⟩
    intro s hs hss
    obtain ⟨f, h1, h2⟩ := ih.2 s hs hss
    exact ⟨fun v => f v * emb c, fun v => by simp [Expr.scale, Expr.value, h1, mul_assoc],
      fun v w a b c d => by simp only; rw [h2 v w a b c d]⟩
  | @add a b e _ _ h iha ihb =>
    rw [Expr.add] at h
    split_ifs at h with hc
    cases h
    simp only [Bool.or_eq_true, not_or, Bool.not_eq_true, not_containsSimple_iff] at hc
    have hnil : (Expr.sum a b).sels.filter (·.simple) = [] := by
      simp [Expr.sels, List.filter_append, hc.1, hc.2]
    refine ⟨by rw [hnil]; simp, ?_⟩
    intro s hs hss
    exact (hno _ s hnil hs hss).elim
  | @sub a b e _ _ h iha ihb =>
    rw [Expr.sub] at h
    split_ifs at h with hc
    cases h
    simp only [Bool.or_eq_true, not_or, Bool.not_eq_true, not_containsSimple_iff] at hc
    have hnil : (Expr.sum a b.neg).sels.filter (·.simple) = [] := by
      simp [Expr.sels, Expr.neg, List.filter_append, hc.1, hc.2]
    refine ⟨by rw [hnil]; simp, ?_⟩
    intro s hs hss
    exact (hno _ s hnil hs hss).elim
  | @mul a b e _ _ h iha ihb =>
    rw [Expr.mul] at h
    split_ifs at h with hc
    cases h
    simp only [Bool.and_eq_true, not_and_or, Bool.not_eq_true, not_containsSimple_iff] at hc
    constructor
    · rw [Expr.sels, List.filter_append, List.length_append]
      rcases hc with hc | hc
      · rw [hc]; simpa using ihb.1
      · rw [hc]; simpa using iha.1
    · intro s hs hss
      rw [Expr.sels, List.mem_append] at hs
      rcases hc with hc | hc
      · have hsb : s ∈ b.sels := hs.resolve_left fun h => hno a s hc h hss
        obtain ⟨f, h1, h2⟩ := ihb.2 s hsb hss
        exact ⟨fun v => a.value emb v * f v, fun v => by simp only [Expr.value, h1]; ring,
          fun v w x y z t => by simp only; rw [h2 v w x y z t, hindep a hc v w x y z t]⟩
      · have hsa : s ∈ a.sels := hs.resolve_right fun h => hno b s hc h hss
        obtain ⟨f, h1, h2⟩ := iha.2 s hsa hss
        exact ⟨fun v => f v * b.value emb v, fun v => by simp only [Expr.value, h1]; ring,
          fun v w x y z t => by simp only; rw [h2 v w x y z t, hindep b hc v w x y z t]⟩

/-- `extract_simple_selector` never panics on such an expression and returns the simple selector
occurring in it. -/
theorem built_extract {e : Expr F} (hb : Built e) :
    ∃ r, e.extractSimple = some r ∧ ∀ s, r = some s ↔ s ∈ e.sels ∧ s.simple = true := by
  have h : (e.sels.filter (·.simple)).length ≤ 1 :=
    (built_spec (R := ℤ) (fun _ => 0) hb).1
  rw [extractSimple_spec]
  have hm : ∀ s, s ∈ e.sels.filter (·.simple) ↔ s ∈ e.sels ∧ s.simple = true := by simp
  rcases hl : e.sels.filter (·.simple) with _ | ⟨a, _ | ⟨b, l⟩⟩
  · rw [hl] at hm
    exact ⟨none, by rw [hl], fun s => by rw [← hm]; simp⟩
  · rw [hl] at hm
    exact ⟨some a, by rw [hl], fun s => by rw [← hm]; simp [eq_comm]⟩
  · rw [hl] at h; simp at h

/-- Constraints built with `with_selector` are the products, and vanish wherever the selector
does; the construction panics exactly when the selector and some constraint both contain a simple
selector. -/
theorem withSelector_spec {R : Type*} [CommRing R] (emb : F → R) (s : Expr F)
    (cs : List (Expr F)) :
    (withSelector s cs = none ↔ (∃ t ∈ s.sels, t.simple = true) ∧
      ∃ c ∈ cs, ∃ t ∈ c.sels, t.simple = true) ∧
    ∀ es, withSelector s cs = some es →
      es.length = cs.length ∧
      ∀ v : Env R, es.map (Expr.value emb v) = cs.map (fun c => s.value emb v * c.value emb v) ∧
        (s.value emb v = 0 → ∀ e ∈ es, e.value emb v = 0) := by
  induction cs with
  | nil => simp [withSelector]
  | cons c cs ih =>
    obtain ⟨ih1, ih2⟩ := ih
    obtain ⟨m1, _⟩ := mul_spec emb (⟨fun _ => 0, fun _ => 0, fun _ => 0, fun _ => 0⟩ : Env R) s c
    have hw : withSelector s (c :: cs)
        = (s.mul c).bind fun e => (withSelector s cs).map (e :: ·) := by
      rw [withSelector, List.mapM_cons]
      rcases s.mul c with _ | e
      · rfl
      · change (withSelector s cs).bind _ = _
        rcases withSelector s cs with _ | es <;> rfl
    rw [hw]
    constructor
    · rw [Option.bind_eq_none_iff]
      constructor
      · intro h
        rcases hm : s.mul c with _ | e
        · exact ⟨(m1.1 hm).1, c, by simp, (m1.1 hm).2⟩
        · have := h e hm
          rw [Option.map_eq_none_iff, ih1] at this
          obtain ⟨p, c', hc', q⟩ := this
          exact ⟨p, c', by simp [hc'], q⟩
      · rintro ⟨p, c', hc', q⟩ e he
        rw [Option.map_eq_none_iff, ih1]
        rcases List.mem_cons.1 hc' with rfl | hc'
        · rw [m1.2 ⟨p, q⟩] at he; simp at he
        · exact ⟨p, c', hc', q⟩
    · intro es hes
      obtain ⟨e, he, hes⟩ := Option.bind_eq_some_iff.1 hes
      obtain ⟨es', hes', rfl⟩ := Option.map_eq_some_iff.1 hes
      obtain ⟨l, h⟩ := ih2 es' hes'
      refine ⟨by simp [l], ?_⟩
      intro v
      have hv := (mul_spec emb v s c).2 e he
      refine ⟨by simp [hv, (h v).1], ?_⟩
      intro h0 e' he'
      rcases List.mem_cons.1 he' with rfl | he'
      · rw [hv, h0, zero_mul]
      · exact (h v).2 h0 e' he'

/-! ### Non-vacuity -/

/-- `s · (a − b·a)` with a simple selector. -/
example : ∃ e : Expr ℚ, Built e ∧ ⟨0, true⟩ ∈ e.sels ∧ e.degree = 3 := by
  have h1 : Built (.product (.advice ⟨1, 1, 0⟩) (.advice ⟨0, 0, 0⟩) : Expr ℚ) :=
    .mul (.advice ⟨1, 1, 0⟩) (.advice ⟨0, 0, 0⟩) (by decide +kernel)
  have h2 : Built (.sum (.advice ⟨0, 0, 0⟩)
      (.negated (.product (.advice ⟨1, 1, 0⟩) (.advice ⟨0, 0, 0⟩))) : Expr ℚ) :=
    .sub (.advice ⟨0, 0, 0⟩) h1 (by decide +kernel)
  refine ⟨_, .mul (.selector ⟨0, true⟩) h2 rfl, ?_, ?_⟩ <;> decide +kernel

/-- Adding a simple selector, or squaring it, panics. -/
example : (Expr.selector ⟨0, true⟩ : Expr ℚ).add (.constant 1) = none ∧
    (Expr.selector ⟨0, true⟩ : Expr ℚ).square = none ∧
    (Expr.selector ⟨0, false⟩ : Expr ℚ).add (.constant 1)
      = some (.sum (.selector ⟨0, false⟩) (.constant 1)) := by decide +kernel

end Verif.Expr
