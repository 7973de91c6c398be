import Verif.EccApi.Complete
import Verif.MulFixed.Instance

/-!
# Circuits over Pallas

A value commitment `[v] G + [r] G` with a signed 64-bit `v`, a circuit with every kind of
multiplication, and a circuit whose incomplete addition is not constrained.
-/

namespace Verif.EccApi

open Verif.Region Verif.Ecc Verif.MulFixed Verif.Pasta

theorem pallas_curve : Curve (5 : ZMod pallas) :=
  ⟨pallas_good, by decide +kernel, order_prime, fun P => by rw [order_eq]; exact pallas_order P⟩

/-- Numbers for columns and selectors. -/
def selectors : Selectors ℕ := ⟨0, 1, 2, 3, fun i => 4 + i, fun i => 7 + i, 10, 11, 12, 13, 14, 15, 16⟩

def advices (i : Fin 10) : ℕ := i

def lagrangeCoeffs (i : Fin 8) : ℕ := 10 + i

def rangeCheck : LookupRange.Config ℕ ℕ := ⟨17, 18, 19, 9, .base⟩

theorem fresh : Fresh advices lagrangeCoeffs 18 rangeCheck selectors := ⟨by decide, by decide⟩

/-- The configuration. -/
def config : Config ℕ ℕ := configure advices lagrangeCoeffs 18 rangeCheck selectors

/-- `[± m] V + [r] R`. -/
def commitment (V R : FixedPoint (5 : ZMod pallas)) (m sign : ZMod pallas) (r : ZMod vesta) :
    List (Call (5 : ZMod pallas) vesta) :=
  [.loadPrivate 0 m, .loadPrivate 1 sign, .newScalarFixedShort 0 1, .mulFixedShort V 0,
    .newScalarFixed r, .mulFixed R 0, .add (.point 0) (.point 1)]

theorem commitment_ok {V R : FixedPoint (5 : ZMod pallas)}
    (hV : V.Valid numWindowsShort ∧ Large V.generator numWindowsShort)
    (hR : R.Valid numWindows ∧ Large R.generator numWindows) (m sign : ZMod pallas) (r : ZMod vesta) :
    ∀ c ∈ commitment V R m sign r, c.BaseOk := by
  simp only [commitment, List.mem_cons, List.not_mem_nil, or_false, forall_eq_or_imp, forall_eq]
  exact ⟨trivial, trivial, trivial, hV, trivial, hR, trivial⟩

/-- Every 64-bit value with a sign can be committed to. -/
theorem commitment_complete {V R : FixedPoint (5 : ZMod pallas)}
    (hV : V.Valid numWindowsShort ∧ Large V.generator numWindowsShort)
    (hR : R.Valid numWindows ∧ Large R.generator numWindows) {m : ℕ} (hm : m < 2 ^ 64) (r : ZMod vesta) :
    ∃ e n ops, run false config (commitment V R m (-1) r) {} 0 = some (e, n, ops) ∧
      (∃ G : Grid ℕ (ZMod pallas), Honest G ops) ∧
      ∀ G, Honest G ops → Sat (gates 5 config) G ops ∧
        (∀ reg, SatLookup (LookupRange.lookup 10 rangeCheck) G ops reg) ∧
        ∃ c, e.points[2]? = some c ∧ Holds G c (-(m • V.generator) + r.val • R.generator) := by
  have h : HSteps (b := (5 : ZMod pallas)) (q := vesta) {} (commitment V R m (-1) r)
      { points := [-(m • V.generator), r.val • R.generator, -(m • V.generator) + r.val • R.generator]
        vars := [m, -1]
        scalarsFixed := [(r, false), (r, true)]
        scalarsShort := [((m, -1), false), ((m, -1), true)] } := by
    refine .cons .loadPrivate (.cons .loadPrivate (.cons (.newScalarFixedShort (m := m) (s := -1) rfl rfl)
      (.cons (.mulFixedShortNeg (m := m) rfl hm) (.cons .newScalarFixed (.cons (.mulFixed (k := r) rfl)
      (.cons (.add (P := -(m • V.generator)) (Q := r.val • R.generator) rfl rfl) .nil))))))
  obtain ⟨e, n, ops, h1, h2, h3⟩ := circuit_complete pallas_curve order_eq.symm fresh false
    (commitment_ok hV hR m (-1) r) h
  refine ⟨e, n, ops, h1, h2, fun G hG => ?_⟩
  obtain ⟨s1, l1, a1⟩ := h3 G hG
  exact ⟨s1, l1, get_of' a1.points rfl⟩

/-- Every assignment that meets the constraints holds the commitment to the 64-bit value, with the
sign, that are in the cells of the two arguments. -/
theorem commitment_sound {V R : FixedPoint (5 : ZMod pallas)}
    (hV : V.Valid numWindowsShort ∧ Large V.generator numWindowsShort)
    (hR : R.Valid numWindows ∧ Large R.generator numWindows) {m sign : ZMod pallas} {r : ZMod vesta}
    {e : Env ℕ pallas vesta} {n : ℕ} {ops : List (Op ℕ ℕ (ZMod pallas))}
    (h : run false config (commitment V R m sign r) {} 0 = some (e, n, ops))
    {G : Grid ℕ (ZMod pallas)} (hs : Sat (gates 5 config) G ops)
    (hl : ∀ reg, SatLookup (LookupRange.lookup 10 rangeCheck) G ops reg) :
    ∃ x y c, e.vars = [x, y] ∧ e.points[2]? = some c ∧ ∃ m' k : ℕ, m' < 2 ^ 64 ∧ k < 2 ^ 255 ∧
      G.at x.cell = m' ∧
      ((G.at y.cell = 1 ∧ Holds G c (m' • V.generator + k • R.generator)) ∨
        (G.at y.cell = -1 ∧ Holds G c (-(m' • V.generator) + k • R.generator))) := by
  rcases circuit_sound pallas_curve fresh (commitment_ok hV hR m sign r)
    (by simp [commitment, Call.isMul]) h hs hl with ⟨v, hst, ha⟩ | ⟨pre, i, j, post, v, P, e1, n1, o1, hc, -⟩
  · have hv : v.vars = [v.vars.headI, v.vars.tail.headI] ∧ ∃ m' k : ℕ, m' < 2 ^ 64 ∧ k < 2 ^ 255 ∧
        v.vars.headI = m' ∧
        ((v.vars.tail.headI = 1 ∧ v.points[2]? = some (m' • V.generator + k • R.generator)) ∨
          (v.vars.tail.headI = -1 ∧ v.points[2]? = some (-(m' • V.generator) + k • R.generator))) := by
      rcases hst with _ | ⟨⟨a⟩, hst⟩
      rcases hst with _ | ⟨⟨s⟩, hst⟩
      rcases hst with _ | ⟨h3, hst⟩
      cases h3 with | newScalarFixedShort hm hs =>
      cases hm
      cases hs
      rcases hst with _ | ⟨h4, hst⟩
      rcases hst with _ | ⟨h5, hst⟩
      rcases hst with _ | ⟨h6, hst⟩
      rcases hst with _ | ⟨h7, hst⟩
      cases hst
      cases h4 with
      | mulFixedShortPos hs4 hm4 =>
        cases h5
        cases h6 with | mulFixed hs6 hk6 =>
        cases h7 with | add hx hy =>
        cases hx
        cases hy
        simp only [List.nil_append, List.cons_append, List.getElem?_cons_zero, Option.some.injEq,
          Prod.mk.injEq] at hs4
        exact ⟨rfl, _, _, hm4, hk6, hs4.1, .inl ⟨hs4.2, rfl⟩⟩
      | mulFixedShortNeg hs4 hm4 =>
        cases h5
        cases h6 with | mulFixed hs6 hk6 =>
        cases h7 with | add hx hy =>
        cases hx
        cases hy
        simp only [List.nil_append, List.cons_append, List.getElem?_cons_zero, Option.some.injEq,
          Prod.mk.injEq] at hs4
        exact ⟨rfl, _, _, hm4, hk6, hs4.1, .inr ⟨hs4.2, rfl⟩⟩
    obtain ⟨hvars, m', k, hm', hk, hx, hy⟩ := hv
    have h2 := ha.vars
    rw [hvars] at h2
    generalize hev : e.vars = l at h2
    obtain _ | ⟨h2x, h2⟩ := h2
    obtain _ | ⟨h2y, h2⟩ := h2
    cases h2
    rcases hy with ⟨hy, hp⟩ | ⟨hy, hp⟩
    · obtain ⟨c, hc, hc'⟩ := get_of' ha.points hp
      exact ⟨_, _, c, rfl, hc, m', k, hm', hk, h2x.trans hx, .inl ⟨h2y.trans hy, hc'⟩⟩
    · obtain ⟨c, hc, hc'⟩ := get_of' ha.points hp
      exact ⟨_, _, c, rfl, hc, m', k, hm', hk, h2x.trans hx, .inr ⟨h2y.trans hy, hc'⟩⟩
  · exfalso
    have : (Call.addIncomplete i j : Call (5 : ZMod pallas) vesta) ∈ commitment V R m sign r := by
      rw [hc]; simp
    simp [commitment] at this

/-- Bases for `commitment` exist: the tables computed for the generator of Pallas. -/
theorem bases : ∃ V R : FixedPoint (5 : ZMod pallas),
    V.generator = pallasGen ∧ (V.Valid numWindowsShort ∧ Large V.generator numWindowsShort) ∧
    R.generator = pallasGen ∧ (R.Valid numWindows ∧ Large R.generator numWindows) := by
  obtain ⟨V, hV, -, -, hv⟩ := Example.tables (N := 22) (by decide) Example.fit_short
  obtain ⟨R, hR, -, -, hr⟩ := Example.tables (N := 85) (by decide) Example.fit_full
  refine ⟨V, R, hV, ⟨hv, ?_⟩, hR, hr, ?_⟩
  · rw [hV]; exact Example.large (by decide +kernel)
  · rw [hR]; exact Example.large (by decide +kernel)

/-- Every kind of multiplication, an incomplete addition and an equality: `[a] P + [a] R` for
`P = pallasGen`, `2 P` by incomplete addition of `P` and a witnessed `2 P` minus a constant `P`. -/
def mixed (R : FixedPoint (5 : ZMod pallas)) (a : ZMod pallas) : List (Call (5 : ZMod pallas) vesta) :=
  [.loadPrivate 0 a, .loadPrivate 3 (-1), .newNonId pallasGen, .newNonId (2 • pallasGen),
    .addIncomplete 0 1, .scalarVarFromBase 0, .mul 2 0, .mulFixedBaseField R 0, .mulSign 1 1,
    .add (.point 0) (.point 2), .newPoint (a.val • (pallasGen + 2 • pallasGen) + -(a.val • R.generator)),
    .constrainEqual (.point 3) (.point 4), .newConstant 0, .add (.nonId 0) (.point 5),
    .extractP (.point 6), .constrainEqual (.point 6) (.nonId 0)]

theorem mixed_complete {R : FixedPoint (5 : ZMod pallas)}
    (hR : R.Valid numWindows ∧ Large R.generator numWindows) (a : ZMod pallas) (fix : Bool) :
    ∃ e n ops, run fix config (mixed R a) {} 0 = some (e, n, ops) ∧
      (∃ G : Grid ℕ (ZMod pallas), Honest G ops) ∧
      ∀ G, Honest G ops → Sat (gates 5 config) G ops ∧
        (∀ reg, SatLookup (LookupRange.lookup 10 rangeCheck) G ops reg) ∧
        ∃ c, e.points[3]? = some c ∧
          Holds G c (a.val • (pallasGen + 2 • pallasGen) + -(a.val • R.generator)) := by
  have hord : ∀ k < 4, k • pallasGen = 0 → k = 0 := by
    intro k hk h
    by_contra h0
    exact Merkle.pallasGen_order k (Nat.pos_of_ne_zero h0) (lt_trans hk (by decide +kernel)) h
  have h0 : pallasGen + 0 = pallasGen := add_zero _
  have h : ∃ v, HSteps (b := (5 : ZMod pallas)) (q := vesta) {} (mixed R a) v ∧
      v.vals.points[3]? = some (a.val • (pallasGen + 2 • pallasGen) + -(a.val • R.generator)) := by
    refine ⟨_, .cons .loadPrivate (.cons .loadPrivate (.cons (.newNonId ?_) (.cons (.newNonId ?_)
      (.cons (.addIncomplete (P := pallasGen) (Q := 2 • pallasGen) rfl rfl ?_ ?_)
      (.cons (.scalarVarFromBase (a := a) rfl) (.cons (.mul (P := pallasGen + 2 • pallasGen) (k := a) rfl rfl)
      (.cons (.mulFixedBaseField (a := a) rfl) (.cons (.mulSignNeg (P := a.val • R.generator) rfl rfl)
      (.cons (.add (P := a.val • (pallasGen + 2 • pallasGen)) (Q := -(a.val • R.generator)) rfl rfl)
      (.cons .newPoint (.cons (.constrainEqual (P := a.val • (pallasGen + 2 • pallasGen)
        + -(a.val • R.generator)) rfl rfl)
      (.cons .newConstant (.cons (.add (P := pallasGen) (Q := 0) rfl rfl)
      (.cons (.extractP (P := pallasGen + 0) rfl)
      (.cons (.constrainEqual (P := pallasGen) (congrArg some h0) rfl) .nil))))))))))))))), rfl⟩
    · intro h
      exact absurd (hord 1 (by decide) (by rw [one_smul]; exact h)) (by decide)
    · intro h
      exact absurd (hord 2 (by decide) h) (by decide)
    · intro h
      refine absurd (hord 1 (by decide) ?_) (by decide)
      rw [two_smul] at h
      rw [one_smul]
      exact (left_eq_add.1 h)
    · intro h
      refine absurd (hord 3 (by decide) ?_) (by decide)
      rw [eq_neg_iff_add_eq_zero] at h
      rw [← h, two_smul]
      abel
  obtain ⟨v, h, hp⟩ := h
  obtain ⟨e, n, ops, h1, h2, h3⟩ := circuit_complete pallas_curve order_eq.symm fresh fix
    (by
      simp only [mixed, List.mem_cons, List.not_mem_nil, or_false, forall_eq_or_imp, forall_eq]
      exact ⟨trivial, trivial, trivial, trivial, trivial, trivial, trivial, hR, trivial, trivial,
        trivial, trivial, trivial, trivial, trivial, trivial⟩) h
  refine ⟨e, n, ops, h1, h2, fun G hG => ?_⟩
  obtain ⟨s1, l1, a1⟩ := h3 G hG
  exact ⟨s1, l1, get_of' a1.points hp⟩

/-- The exceptional case of `circuit_sound` is real: for an incomplete addition of two witnessed
points there are, besides the honest assignment, assignments that meet every constraint, hold the
same point in both arguments, and hold any two field elements in the result. -/
theorem addIncomplete_free {P Q : Pt (5 : ZMod pallas)} (hP : P ≠ 0) (hQ : Q ≠ 0) (h1 : P ≠ Q)
    (h2 : P ≠ -Q) (fix : Bool) (x y : ZMod pallas) :
    ∃ e n ops a b c, run fix config ([.newNonId P, .newNonId Q, .addIncomplete 0 1] :
        List (Call (5 : ZMod pallas) vesta)) {} 0 = some (e, n, ops) ∧ e.nonIds = [a, b, c] ∧
      ∃ G : Grid ℕ (ZMod pallas), Sat (gates 5 config) G ops ∧
        (∀ reg, SatLookup (LookupRange.lookup 10 rangeCheck) G ops reg) ∧
        Holds G a P ∧ Holds G b P ∧ G.at c.x.cell = x ∧ G.at c.y.cell = y := by
  have hp : ∀ (R : Pt (5 : ZMod pallas)) (hR : R ≠ 0) (m k : ℕ),
      WitnessPoint.pointNonId config.witnessPoint R m 0 k
      = some (⟨⟨⟨m, 0, (0 : ℕ)⟩, (enc R).1⟩, ⟨⟨m, 1, (0 : ℕ)⟩, (enc R).2⟩⟩, k,
          [.enable 1 m (0 : ℕ), .advice ⟨m, 0, (0 : ℕ)⟩ (enc R).1, .advice ⟨m, 1, (0 : ℕ)⟩ (enc R).2]) := by
    intro R hR m k
    unfold WitnessPoint.pointNonId
    refine bind_of (a := ()) (n' := k) (ops₁ := [.enable 1 m (0 : ℕ)]) rfl ?_
    exact bind_of (a := ()) (n' := k) (ops₁ := []) (if_pos hR) rfl
  let a : EccPoint ℕ (ZMod pallas) := ⟨⟨⟨0, 0, (0 : ℕ)⟩, (enc P).1⟩, ⟨⟨0, 1, (0 : ℕ)⟩, (enc P).2⟩⟩
  let b : EccPoint ℕ (ZMod pallas) := ⟨⟨⟨1, 0, (0 : ℕ)⟩, (enc Q).1⟩, ⟨⟨1, 1, (0 : ℕ)⟩, (enc Q).2⟩⟩
  have hx : ¬ AddIncomplete.Exceptional a b := by
    intro hx
    have := (AddIncomplete.fails_iff pallas_good (cfg := config.addIncomplete) 2 0 3 (p := a) (q := b)
      (P := P) (Q := Q) rfl rfl).1 (AddIncomplete.run_none 2 0 3 hx)
    rcases this with h | h | h | h
    exacts [hP h, hQ h, h1 h, h2 h]
  refine ⟨_, _, _, a, b, _, bind_of (bind_of (region_of (hp P hP 0 1)) rfl) (bind_of
    (bind_of (region_of (hp Q hQ 1 2)) rfl) (bind_of (bind_of (unwrap_of rfl 2) (bind_of
    (unwrap_of rfl 2) (bind_of (region_of (AddIncomplete.run 2 0 3 hx)) rfl))) rfl)), rfl, ?_⟩
  obtain ⟨G, hG⟩ : ∃ G : Grid ℕ (ZMod pallas), G = fun _ col row =>
      if row = 1 then (if col = 2 then x else y)
      else if col = 0 ∨ col = 2 then (enc P).1 else (enc P).2 := ⟨_, rfl⟩
  have hw : ∀ (m : ℕ) (u v : ZMod pallas), Sat (gates 5 config) G [.enable 1 m (0 : ℕ),
      .advice ⟨m, 0, (0 : ℕ)⟩ u, .advice ⟨m, 1, (0 : ℕ)⟩ v] := by
    intro m u v
    refine lift_wp fresh ?_ ⟨?_, ?_, ?_, ?_⟩
    · intro s reg row hm
      simp only [List.mem_cons, Op.enable.injEq, reduceCtorEq, List.not_mem_nil, or_false] at hm
      rw [hm.1]
      decide
    · intro g hg reg row hm
      simp only [List.mem_cons, Op.enable.injEq, reduceCtorEq, List.not_mem_nil, or_false] at hm
      obtain ⟨hs, rfl, rfl⟩ := hm
      simp only [WitnessPoint.gates, List.mem_cons, List.not_mem_nil, or_false] at hg
      rcases hg with rfl | rfl
      · exact absurd hs (by decide)
      · refine (WitnessPoint.gate_nonId pallas_good config.witnessPoint _).2 ⟨P, hP, ?_⟩
        rw [hG]
        rfl
    all_goals
      intro _ _ hm
      simp only [List.mem_cons, reduceCtorEq, List.not_mem_nil, or_false] at hm
  have hi : Sat (gates 5 config) G (AddIncomplete.ops config.addIncomplete a b 2 0) := by
    refine lift_addIncomplete fresh ?_ ⟨?_, ?_, ?_, ?_⟩
    · intro s reg row hm
      simp only [AddIncomplete.ops, List.mem_cons, Op.enable.injEq, reduceCtorEq, List.not_mem_nil,
        or_false, false_or] at hm
      rw [hm.1]
      decide
    · intro g hg reg row hm
      simp only [AddIncomplete.ops, List.mem_cons, Op.enable.injEq, reduceCtorEq, List.not_mem_nil,
        or_false, false_or] at hm
      obtain ⟨hs, rfl, rfl⟩ := hm
      simp only [AddIncomplete.gates, List.mem_singleton] at hg
      subst hg
      rw [hG]
      exact AddIncomplete.gate_double (enc P).1 (enc P).2 x y
    · intro c d hm
      simp only [AddIncomplete.ops, List.mem_cons, Op.equal.injEq, reduceCtorEq, List.not_mem_nil,
        or_false, false_or] at hm
      rw [hG]
      rcases hm with ⟨rfl, rfl⟩ | ⟨rfl, rfl⟩ | ⟨rfl, rfl⟩ | ⟨rfl, rfl⟩ <;> rfl
    all_goals
      intro _ _ hm
      simp only [AddIncomplete.ops, List.mem_cons, reduceCtorEq, List.not_mem_nil, or_false] at hm
  have hnil : Sat (gates (5 : ZMod pallas) config) G ([] : List (Op ℕ ℕ (ZMod pallas))) :=
    ⟨fun _ _ _ _ h => by simp at h, fun _ _ h => by simp at h, fun _ _ h => by simp at h,
      fun _ _ h => by simp at h⟩
  refine ⟨G, ((hw 0 _ _).append hnil).append (((hw 1 _ _).append hnil).append ((hnil.append
    (hnil.append (hi.append hnil))).append hnil)), ?_, ?_, ?_, ?_, ?_⟩
  · refine no_lookup fresh (I := [1, 2]) ?_ (by decide)
    intro s reg row hm
    simp only [AddIncomplete.ops, List.mem_append, List.mem_cons, Op.enable.injEq, reduceCtorEq,
      List.not_mem_nil, or_false, false_or] at hm
    rcases hm with h | h | h <;> rw [h.1] <;> decide
  all_goals rw [hG]; rfl

end Verif.EccApi
