import Verif.EccApi.Sound

/-!
# Soundness of circuits made of the gadget's calls (C79)
-/

namespace Verif.EccApi

open Verif.Region Verif.Ecc Verif.MulFixed

variable {C S : Type} {p q : ℕ} [Fact p.Prime] [Fact q.Prime] {b : ZMod p}

section

variable {cfg : Config C S} {G : Grid C (ZMod p)} {ops : List (Op C S (ZMod p))}

theorem Sat.wp (h : Sat (gates b cfg) G ops) : Sat (WitnessPoint.gates b cfg.witnessPoint) G ops :=
  h.mono (fun _ h => by simp [gates, h]) fun _ h => h

theorem Sat.addIncomplete (h : Sat (gates b cfg) G ops) :
    Sat (AddIncomplete.gates cfg.addIncomplete) G ops :=
  h.mono (fun _ h => by simp [gates, h]) fun _ h => h

theorem Sat.add (h : Sat (gates b cfg) G ops) : Sat (Add.gates cfg.add) G ops :=
  h.mono (fun _ h => by simp [gates, h]) fun _ h => h

theorem Sat.mul (h : Sat (gates b cfg) G ops) : Sat (Mul.gates cfg.mul) G ops :=
  h.mono (fun _ h => by simp [gates, h]) fun _ h => h

theorem Sat.full (h : Sat (gates b cfg) G ops) : Sat (FullWidth.gates b cfg.mulFixedFull) G ops :=
  h.mono (fun _ h => by simp [gates, h]) fun _ h => h

theorem Sat.short (h : Sat (gates b cfg) G ops) : Sat (Short.gates b cfg.mulFixedShort) G ops :=
  h.mono (fun _ h => by simp [gates, h]) fun _ h => h

theorem Sat.base (h : Sat (gates b cfg) G ops) :
    Sat (BaseFieldElem.gates b cfg.mulFixedBaseField) G ops :=
  h.mono (fun _ h => by simp [gates, h]) fun _ h => h

end

/-- The base field of Pallas and the group of its points. -/
structure Curve (b : ZMod p) : Prop where
  good : Good b
  field : p = 2 ^ 254 + T_P
  prime : Mul.order.Prime
  order : ∀ P : Pt b, Mul.order • P = 0

/-- One call. -/
theorem call_sound (hcv : Curve b) {fix : Bool} {cfg : Config C S} (hok : cfg.Ok) {c : Call b q}
    (hb : c.BaseOk) (hfix : fix = true ∨ c.isMul = false) {e e' : Env C p q} {n n' : ℕ}
    {ops tot : List (Op C S (ZMod p))} (h : call fix cfg e c n = some (e', n', ops))
    (hpart : PartOf ops tot n n') {G : Grid C (ZMod p)} (hst : Sat (gates b cfg) G tot)
    (hl : ∀ reg, SatLookup (LookupRange.lookup 10 cfg.lookup) G tot reg) {v : Vals b}
    (hv : Agrees G e v) :
    (∃ v', Step v c v' ∧ Agrees G e' v') ∨
      ∃ i j P, c = .addIncomplete i j ∧ v.nonIds[i]? = some P ∧ v.nonIds[j]? = some P := by
  have hg := hcv.good
  have hp254 : 2 ^ 254 < p := by rw [hcv.field]; unfold T_P; norm_num
  have hp8 : 8 < p := lt_trans (by norm_num) hp254
  have hs : Sat (gates b cfg) G ops := hst.mono (fun _ h => h) hpart.sub
  cases c with
  | loadPrivate col x =>
    cases h
    exact .inl ⟨_, .loadPrivate _, { hv with vars := snoc_of hv.vars rfl }⟩
  | newPoint P =>
    obtain ⟨a, n1, o1, o2, h1, h2, rfl⟩ := bind_some h
    cases h2
    obtain ⟨a', ops', h1', -, hsound, -⟩ := WitnessPoint.point_spec hg hok.wp P n 0 (n + 1)
    unfold Region.assignRegion at h1
    dsimp only at h1
    rw [h1'] at h1
    cases h1
    obtain ⟨P', hP'⟩ := hsound G (Sat.wp hs.left)
    exact .inl ⟨_, .newPoint P', { hv with points := snoc_of hv.points hP' }⟩
  | newConstant P =>
    obtain ⟨a, n1, o1, o2, h1, h2, rfl⟩ := bind_some h
    cases h2
    obtain ⟨a', ops', h1', hsound⟩ := WitnessPoint.constantPoint_sound (cfg := cfg.witnessPoint) P n 0 (n + 1)
    unfold Region.assignRegion at h1
    dsimp only at h1
    rw [h1'] at h1
    cases h1
    exact .inl ⟨_, .newConstant, { hv with points := snoc_of hv.points (hsound G (Sat.wp hs.left)) }⟩
  | newNonId P =>
    obtain ⟨a, n1, o1, o2, h1, h2, rfl⟩ := bind_some h
    cases h2
    obtain ⟨hz, hnz⟩ := WitnessPoint.pointNonId_spec hg hok.wp P n 0 (n + 1)
    unfold Region.assignRegion at h1
    dsimp only at h1
    have hP : P ≠ 0 := by
      intro e0
      rw [hz e0] at h1
      cases h1
    obtain ⟨a', ops', h1', -, hsound, -⟩ := hnz hP
    rw [h1'] at h1
    cases h1
    obtain ⟨P', hP0, hP'⟩ := hsound G (Sat.wp hs.left)
    exact .inl ⟨_, .newNonId hP0, { hv with nonIds := snoc_of hv.nonIds ⟨hP', hP0⟩ }⟩
  | constrainEqual x y =>
    obtain ⟨ax, n1, o1, o2, h1, h2, rfl⟩ := bind_some h
    obtain ⟨hx, rfl, rfl⟩ := unwrap_some h1
    obtain ⟨ay, n1, o1, o2', h1, h3, rfl⟩ := bind_some h2
    obtain ⟨hy, rfl, rfl⟩ := unwrap_some h1
    cases h3
    obtain ⟨P, hPx, hP⟩ := hv.arg hx
    obtain ⟨Q, hQy, hQ⟩ := hv.arg hy
    have e1 := hs.equal ax.x.cell ay.x.cell (by simp)
    have e2 := hs.equal ax.y.cell ay.y.cell (by simp)
    have : P = Q := enc_injective hg (by
      rw [show enc P = _ from hP, show enc Q = _ from hQ, e1, e2])
    subst this
    exact .inl ⟨_, .constrainEqual hPx hQy, hv⟩
  | extractP x =>
    obtain ⟨ax, n1, o1, o2, h1, h2, rfl⟩ := bind_some h
    obtain ⟨hx, rfl, rfl⟩ := unwrap_some h1
    cases h2
    obtain ⟨P, hPx, hP⟩ := hv.arg hx
    exact .inl ⟨_, .extractP hPx,
      { hv with vars := snoc_of hv.vars (by rw [show enc P = _ from hP]) }⟩
  | add x y =>
    obtain ⟨ax, n1, o1, o2, h1, h2, rfl⟩ := bind_some h
    obtain ⟨hx, rfl, rfl⟩ := unwrap_some h1
    obtain ⟨ay, n1, o1, o2', h1, h3, rfl⟩ := bind_some h2
    obtain ⟨hy, rfl, rfl⟩ := unwrap_some h1
    obtain ⟨a, n1, o1, o2', h1, h4, rfl⟩ := bind_some h3
    cases h4
    obtain ⟨P, hPx, hP⟩ := hv.arg hx
    obtain ⟨Q, hQy, hQ⟩ := hv.arg hy
    have := Add.sound hg h1 G (Sat.add hs.right.right.left) hP hQ
    exact .inl ⟨_, .add hPx hQy, { hv with points := snoc_of hv.points this }⟩
  | addIncomplete i j =>
    obtain ⟨ax, n1, o1, o2, h1, h2, rfl⟩ := bind_some h
    obtain ⟨hx, rfl, rfl⟩ := unwrap_some h1
    obtain ⟨ay, n1, o1, o2', h1, h3, rfl⟩ := bind_some h2
    obtain ⟨hy, rfl, rfl⟩ := unwrap_some h1
    obtain ⟨a, n1, o1, o2', h1, h4, rfl⟩ := bind_some h3
    cases h4
    obtain ⟨P, hPx, hP, hP0⟩ := get_of hv.nonIds hx
    obtain ⟨Q, hQy, hQ, hQ0⟩ := get_of hv.nonIds hy
    have hsat := Sat.addIncomplete hs.right.right.left
    have hno := addIncomplete_opposite hg h1 hsat hP hQ hP0
    by_cases hPQ : P = Q
    · exact .inr ⟨i, j, P, rfl, hPx, by rw [hPQ]; exact hQy⟩
    · have := AddIncomplete.sound hg h1 G hsat hP hQ hP0 hQ0 hPQ hno
      exact .inl ⟨_, .addIncomplete hPx hQy hPQ hno,
        { hv with
          nonIds := snoc_of hv.nonIds ⟨this, fun e0 => hno (eq_neg_of_add_eq_zero_left e0)⟩ }⟩
  | mulSign i j =>
    obtain ⟨ax, n1, o1, o2, h1, h2, rfl⟩ := bind_some h
    obtain ⟨hx, rfl, rfl⟩ := unwrap_some h1
    obtain ⟨ay, n1, o1, o2', h1, h3, rfl⟩ := bind_some h2
    obtain ⟨hy, rfl, rfl⟩ := unwrap_some h1
    obtain ⟨a, n1, o1, o2', h1, h4, rfl⟩ := bind_some h3
    cases h4
    obtain ⟨P, hPx, hP⟩ := get_of hv.points hx
    obtain ⟨s, hsy, hsg⟩ := get_of hv.vars hy
    rcases Short.assignScalarSign_sound hg h1 (Sat.short hs.right.right.left) hP with ⟨e1, hr⟩ | ⟨e1, hr⟩
    · rw [hsg] at e1
      subst e1
      exact .inl ⟨_, .mulSignPos hPx hsy, { hv with points := snoc_of hv.points hr }⟩
    · rw [hsg] at e1
      subst e1
      exact .inl ⟨_, .mulSignNeg hPx hsy, { hv with points := snoc_of hv.points hr }⟩
  | newScalarVar x => cases h
  | scalarVarFromBase i =>
    obtain ⟨ax, n1, o1, o2, h1, h2, rfl⟩ := bind_some h
    obtain ⟨hx, rfl, rfl⟩ := unwrap_some h1
    cases h2
    obtain ⟨s, hsy, hsg⟩ := get_of hv.vars hx
    exact .inl ⟨_, .scalarVarFromBase hsy, { hv with scalarVars := snoc_of hv.scalarVars hsg }⟩
  | mul i j =>
    have hfix' : fix = true := hfix.resolve_right (by simp [Call.isMul])
    subst hfix'
    obtain ⟨ax, n1, o1, o2, h1, h2, rfl⟩ := bind_some h
    obtain ⟨hx, rfl, rfl⟩ := unwrap_some h1
    obtain ⟨k, n1, o1, o2', h1, h3, rfl⟩ := bind_some h2
    obtain ⟨hk, rfl, rfl⟩ := unwrap_some h1
    obtain ⟨a, n1, o1, o2', h1, h4, rfl⟩ := bind_some h3
    cases h4
    obtain ⟨P, hPx, hP, hP0⟩ := get_of hv.nonIds hx
    obtain ⟨s, hsy, hsg⟩ := get_of hv.scalarVars hk
    have hpart' : PartOf o1 tot n1 n' := by simpa using hpart
    have := mul_sound hp254 hg hok.mul hcv.prime hcv.order h1 hpart' (Sat.mul hst)
      (by rw [hok.mulLookup]; exact hl) hP hP0
    rw [hsg] at this
    exact .inl ⟨_, .mul hPx hsy,
      { hv with points := snoc_of hv.points this, scalarVars := snoc_of hv.scalarVars hsg }⟩
  | newScalarFixed x =>
    cases h
    exact .inl ⟨_, .newScalarFixed, { hv with scalarsFixed := snoc_of hv.scalarsFixed rfl }⟩
  | mulFixed base j =>
    obtain ⟨k, n1, o1, o2, h1, h2, rfl⟩ := bind_some h
    obtain ⟨hk, rfl, rfl⟩ := unwrap_some h1
    obtain ⟨u, n1, o1, o2', h1, h3, rfl⟩ := bind_some h2
    obtain ⟨hnone, rfl, rfl⟩ := assert_some h1
    obtain ⟨⟨a, ws⟩, n1, o1, o2', h1, h4, rfl⟩ := bind_some h3
    cases h4
    obtain ⟨o, hko, hkr⟩ := get_of hv.scalarsFixed hk
    have ho : o = none := by
      rw [hnone] at hkr
      cases o with
      | none => rfl
      | some k => simp at hkr
    subst ho
    obtain ⟨d, hd, hws, hr⟩ := FullWidth.assign_sound hg hb.2 hb.1 h1 (Sat.full hs.right.right.left)
    refine .inl ⟨_, .mulFixed hko (k := value d numWindows) ?_,
      { hv with points := snoc_of hv.points hr, scalarsFixed := snoc_of hv.scalarsFixed ?_ }⟩
    · refine lt_of_lt_of_eq (value_lt hd) ?_
      unfold numWindows; norm_num
    · simp only [Option.map_some, hws]
      refine congrArg some (List.map_congr_left fun i hi => ?_)
      rw [digit_of_value hd i (List.mem_range.1 hi)]
  | newScalarFixedShort i j =>
    obtain ⟨ax, n1, o1, o2, h1, h2, rfl⟩ := bind_some h
    obtain ⟨hx, rfl, rfl⟩ := unwrap_some h1
    obtain ⟨ay, n1, o1, o2', h1, h3, rfl⟩ := bind_some h2
    obtain ⟨hy, rfl, rfl⟩ := unwrap_some h1
    cases h3
    obtain ⟨m, hm, hmg⟩ := get_of hv.vars hx
    obtain ⟨s, hsy, hsg⟩ := get_of hv.vars hy
    exact .inl ⟨_, .newScalarFixedShort hm hsy,
      { hv with scalarsShort := snoc_of hv.scalarsShort ⟨hmg, hsg⟩ }⟩
  | mulFixedShort base j =>
    obtain ⟨k, n1, o1, o2, h1, h2, rfl⟩ := bind_some h
    obtain ⟨hk, rfl, rfl⟩ := unwrap_some h1
    obtain ⟨u, n1, o1, o2', h1, h3, rfl⟩ := bind_some h2
    obtain ⟨hnone, rfl, rfl⟩ := assert_some h1
    obtain ⟨⟨a, zs⟩, n1, o1, o2', h1, h4, rfl⟩ := bind_some h3
    cases h4
    obtain ⟨⟨m', s'⟩, hko, hkm, hks⟩ := get_of hv.scalarsShort hk
    obtain ⟨m, hm, hmg, hr⟩ := Short.assign_sound hg hp8 hb.2 hb.1 hok.short h1
      (Sat.short hs.right.right.left)
    have hm' : m' = ((m : ℕ) : ZMod p) := hkm.symm.trans hmg
    subst hm'
    rcases hr with ⟨hsg, hr⟩ | ⟨hsg, hr⟩
    · have hs' : s' = 1 := hks.symm.trans hsg
      subst hs'
      exact .inl ⟨_, .mulFixedShortPos hko hm,
        { hv with
          points := snoc_of hv.points hr, scalarsShort := snoc_of hv.scalarsShort ⟨hkm, hks⟩ }⟩
    · have hs' : s' = -1 := hks.symm.trans hsg
      subst hs'
      exact .inl ⟨_, .mulFixedShortNeg hko hm,
        { hv with
          points := snoc_of hv.points hr, scalarsShort := snoc_of hv.scalarsShort ⟨hkm, hks⟩ }⟩
  | mulFixedBaseField base i =>
    obtain ⟨ax, n1, o1, o2, h1, h2, rfl⟩ := bind_some h
    obtain ⟨hx, rfl, rfl⟩ := unwrap_some h1
    obtain ⟨a, n1, o1, o2', h1, h4, rfl⟩ := bind_some h2
    cases h4
    obtain ⟨s, hsy, hsg⟩ := get_of hv.vars hx
    have hpart' : PartOf o1 tot n1 n' := by simpa using hpart
    have := BaseFieldElem.assign_sound hg hcv.field hb.2 hb.1 hok.base
      (by rw [hok.baseLookup, ← hok.mulLookup]; exact hok.mul.lookup) h1 hpart' (Sat.base hst)
      (by rw [hok.baseLookup]; exact hl)
    rw [hsg] at this
    exact .inl ⟨_, .mulFixedBaseField hsy, { hv with points := snoc_of hv.points this }⟩

/-- A list of calls in a circuit. -/
theorem run_sound (hcv : Curve b) {fix : Bool} {cfg : Config C S} (hok : cfg.Ok)
    {cs : List (Call b q)} (hb : ∀ c ∈ cs, c.BaseOk) (hfix : fix = true ∨ ∀ c ∈ cs, c.isMul = false)
    {e e' : Env C p q} {n n' : ℕ} {ops tot : List (Op C S (ZMod p))}
    (h : run fix cfg cs e n = some (e', n', ops)) (hpart : PartOf ops tot n n') {G : Grid C (ZMod p)}
    (hst : Sat (gates b cfg) G tot)
    (hl : ∀ reg, SatLookup (LookupRange.lookup 10 cfg.lookup) G tot reg) {v : Vals b}
    (hv : Agrees G e v) :
    (∃ v', Steps v cs v' ∧ Agrees G e' v') ∨
      ∃ pre i j post v' P, ∃ (e1 : Env C p q) (n1 : ℕ) (o1 : List (Op C S (ZMod p))),
        cs = pre ++ .addIncomplete i j :: post ∧ Steps v pre v' ∧
        run fix cfg pre e n = some (e1, n1, o1) ∧ Agrees G e1 v' ∧
        v'.nonIds[i]? = some P ∧ v'.nonIds[j]? = some P := by
  induction cs generalizing e n ops v with
  | nil =>
    cases h
    exact .inl ⟨v, .nil, hv⟩
  | cons c cs ih =>
    obtain ⟨e1, n1, o1, o2, h1, h2, rfl⟩ := bind_some h
    obtain ⟨q1, q2⟩ := PartOf.bind (call_local fix cfg e c) (run_local fix cfg cs e1) h1 h2 hpart
    rcases call_sound hcv hok (hb c (by simp)) (hfix.imp_right fun h => h c (by simp)) h1 q1 hst hl hv with
      ⟨v1, hs1, hv1⟩ | ⟨i, j, P, rfl, hi, hj⟩
    · rcases ih (fun c hc => hb c (by simp [hc])) (hfix.imp_right fun h c hc => h c (by simp [hc])) h2 q2
        hv1 with ⟨v', hs', hv'⟩ | ⟨pre, i, j, post, v', P, e2, n2, o2', rfl, hs', hr, ha, hi, hj⟩
      · exact .inl ⟨v', .cons hs1 hs', hv'⟩
      · refine .inr ⟨c :: pre, i, j, post, v', P, e2, n2, o1 ++ o2', rfl, .cons hs1 hs', ?_, ha, hi, hj⟩
        show (call fix cfg e c >>= run fix cfg pre) n = _
        simp only [Bind.bind, h1, hr]
    · exact .inr ⟨[], i, j, cs, v, P, e, n, [], rfl, .nil, rfl, hv, hi, hj⟩

/-- **C79**, soundness: in a circuit made of any calls of the gadget, without variable-base
multiplications, every assignment that meets the gates, the copy constraints and the lookups has in
the cells of the handles the values that the calls mean, unless it has the same point in the
cells of the two operands of an incomplete addition. -/
theorem circuit_sound (hcv : Curve b) {advices : Fin 10 → C} {lagrangeCoeffs : Fin 8 → C} {fixedZ : C}
    {rangeCheck : LookupRange.Config C S} {s : Selectors S}
    (hf : Fresh advices lagrangeCoeffs fixedZ rangeCheck s) {cs : List (Call b q)}
    (hb : ∀ c ∈ cs, c.BaseOk) (hmul : ∀ c ∈ cs, c.isMul = false) {e : Env C p q} {n : ℕ}
    {ops : List (Op C S (ZMod p))}
    (h : run false (configure advices lagrangeCoeffs fixedZ rangeCheck s) cs {} 0 = some (e, n, ops))
    {G : Grid C (ZMod p)}
    (hs : Sat (gates b (configure advices lagrangeCoeffs fixedZ rangeCheck s)) G ops)
    (hl : ∀ reg, SatLookup (LookupRange.lookup 10 rangeCheck) G ops reg) :
    (∃ v : Vals b, Steps {} cs v ∧ Agrees G e v) ∨
      ∃ pre i j post, ∃ v : Vals b, ∃ P, ∃ (e1 : Env C p q) (n1 : ℕ) (o1 : List (Op C S (ZMod p))),
        cs = pre ++ .addIncomplete i j :: post ∧ Steps {} pre v ∧
        run false (configure advices lagrangeCoeffs fixedZ rangeCheck s) pre {} 0 = some (e1, n1, o1) ∧
        Agrees G e1 v ∧ v.nonIds[i]? = some P ∧ v.nonIds[j]? = some P :=
  run_sound hcv (configure_ok hf) hb (.inr hmul) h (PartOf.self _ _ _) hs hl (Agrees.empty G)

/-- **C79**, with variable-base multiplications: the same holds of circuits with any calls once
`mul` constrains the four cells in which it witnesses its base to be equal to the base. -/
theorem circuit_sound_fixed (hcv : Curve b) {advices : Fin 10 → C} {lagrangeCoeffs : Fin 8 → C}
    {fixedZ : C} {rangeCheck : LookupRange.Config C S} {s : Selectors S}
    (hf : Fresh advices lagrangeCoeffs fixedZ rangeCheck s) {cs : List (Call b q)}
    (hb : ∀ c ∈ cs, c.BaseOk) {e : Env C p q} {n : ℕ} {ops : List (Op C S (ZMod p))}
    (h : run true (configure advices lagrangeCoeffs fixedZ rangeCheck s) cs {} 0 = some (e, n, ops))
    {G : Grid C (ZMod p)}
    (hs : Sat (gates b (configure advices lagrangeCoeffs fixedZ rangeCheck s)) G ops)
    (hl : ∀ reg, SatLookup (LookupRange.lookup 10 rangeCheck) G ops reg) :
    (∃ v : Vals b, Steps {} cs v ∧ Agrees G e v) ∨
      ∃ pre i j post, ∃ v : Vals b, ∃ P, ∃ (e1 : Env C p q) (n1 : ℕ) (o1 : List (Op C S (ZMod p))),
        cs = pre ++ .addIncomplete i j :: post ∧ Steps {} pre v ∧
        run true (configure advices lagrangeCoeffs fixedZ rangeCheck s) pre {} 0 = some (e1, n1, o1) ∧
        Agrees G e1 v ∧ v.nonIds[i]? = some P ∧ v.nonIds[j]? = some P :=
  run_sound hcv (configure_ok hf) hb (.inl rfl) h (PartOf.self _ _ _) hs hl (Agrees.empty G)

end Verif.EccApi
