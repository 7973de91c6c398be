import Verif.Floor.Props

/-!
# The single-pass planner (C19)
-/

namespace Verif.Floor

variable {V : Type}

theorem rowOf_append {starts ext : List ℕ} {cell : Cell} {r : ℕ}
    (h : rowOf starts cell = some r) : rowOf (starts ++ ext) cell = some r := by
  simp only [rowOf, Option.map_eq_some_iff] at h ⊢
  obtain ⟨a, ha, rfl⟩ := h
  exact ⟨a, by rw [List.getElem?_append_left (List.getElem?_eq_some_iff.1 ha).1, ha], rfl⟩

theorem place_append {starts ext : List ℕ} {i : ℕ} {op : ROp V} {l : List (COp V)}
    (h : place starts i op = some l) : place (starts ++ ext) i op = some l := by
  have hget : ∀ r, starts[i]? = some r → (starts ++ ext)[i]? = some r := fun r hr => by
    rw [List.getElem?_append_left (List.getElem?_eq_some_iff.1 hr).1, hr]
  cases op <;>
    simp only [place, Option.bind_eq_bind, Option.bind_eq_some_iff, Option.some.injEq] at h ⊢
  · obtain ⟨r, hr, h⟩ := h; exact ⟨r, hget r hr, h⟩
  · obtain ⟨r, hr, h⟩ := h; exact ⟨r, hget r hr, h⟩
  · obtain ⟨r, hr, h⟩ := h; exact ⟨r, hget r hr, h⟩
  · exact h
  · obtain ⟨r, hr, r', hr', h⟩ := h; exact ⟨r, rowOf_append hr, r', rowOf_append hr', h⟩
  · obtain ⟨r, hr, h⟩ := h; exact ⟨r, rowOf_append hr, h⟩

theorem foldl_max_columns (cols : List RegionColumn) (f : RegionColumn → ℕ) (a : ℕ) :
    a ≤ cols.foldl (fun r c => max r (f c)) a ∧
      ∀ c ∈ cols, f c ≤ cols.foldl (fun r c => max r (f c)) a := by
  induction cols generalizing a with
  | nil => simp
  | cons c cols ih =>
    obtain ⟨h1, h2⟩ := ih (max a (f c))
    rw [List.foldl_cons]
    refine ⟨by omega, fun c' hc' => ?_⟩
    rcases List.mem_cons.1 hc' with rfl | hc'
    · omega
    · exact h2 c' hc'

theorem foldl_update (cols : List RegionColumn) (f : RegionColumn → ℕ) (e : ℕ) (c : RegionColumn) :
    cols.foldl (fun m c => Function.update m c e) f c = if c ∈ cols then e else f c := by
  induction cols generalizing f with
  | nil => simp
  | cons d cols ih =>
    rw [List.foldl_cons, ih]
    by_cases h1 : c ∈ cols
    · simp [h1]
    · by_cases h2 : c = d
      · subst h2; simp [h1]
      · simp [h1, h2, Function.update_of_ne h2]

/-- The state after the regions `done`. -/
structure Inv (constants : List ℕ) (done : List (List (ROp V))) (s : Single)
    (calls : List (Owner × COp V)) (rows : List ℕ) : Prop where
  len : s.regions.length = done.length
  consts : s.consts = (done.flatMap constantsOf).length
  rowsLen : rows.length = s.consts
  placed : ∀ i ops, done[i]? = some ops → ∀ op ∈ ops, ∃ cs, place s.regions i op = some cs
  cells : ∀ v cell, (v, cell) ∈ done.flatMap constantsOf → ∃ r, rowOf s.regions cell = some r
  head : rows ≠ [] → constants ≠ []
  mem : ∀ p, p ∈ calls ↔
    (∃ i ops, done[i]? = some ops ∧ p.1 = .region i ∧ ∃ op ∈ ops, ∃ cs,
      place s.regions i op = some cs ∧ p.2 ∈ cs) ∨
    (∃ (k c row : ℕ) (v : V) (cell : Cell) (r : ℕ), constants.head? = some c ∧ rows[k]? = some row ∧
      (done.flatMap constantsOf)[k]? = some (v, cell) ∧ rowOf s.regions cell = some r ∧
      (p = (.constant k, .fixed c row v) ∨ p = (.constant k, .copy (.fixed c) row cell.col r)))
  below : ∀ i ops r, done[i]? = some ops → s.regions[i]? = some r → ∀ c x,
    Uses (r, shape i ops) c x → x < s.columns c
  rowsBelow : ∀ c, constants.head? = some c → ∀ row ∈ rows, row < s.columns (.fixed c)
  disjoint : ∀ i j oi oj ri rj, done[i]? = some oi → done[j]? = some oj → s.regions[i]? = some ri →
    s.regions[j]? = some rj → ∀ c x, Uses (ri, shape i oi) c x → Uses (rj, shape j oj) c x → i = j
  rowsNodup : rows.Nodup
  rowsFree : ∀ i ops r, done[i]? = some ops → s.regions[i]? = some r → ∀ c,
    constants.head? = some c → ∀ row ∈ rows, ¬ Uses (r, shape i ops) (.fixed c) row

theorem Inv.init (constants : List ℕ) :
    Inv constants ([] : List (List (ROp V))) ⟨[], fun _ => 0, 0⟩ [] [] := by
  constructor <;> simp

theorem getElem?_concat {α : Type} {l : List α} {a b : α} {i : ℕ} :
    (l ++ [a])[i]? = some b ↔ l[i]? = some b ∨ (i = l.length ∧ b = a) := by
  rcases lt_trichotomy i l.length with h | h | h
  · rw [List.getElem?_append_left h]
    simp [h.ne]
  · subst h
    simp [eq_comm]
  · rw [List.getElem?_eq_none (by simp; omega), List.getElem?_eq_none (by omega)]
    simp; omega

/-- One more region. -/
theorem Inv.step {constants : List ℕ} {done : List (List (ROp V))} {s s' : Single}
    {calls new : List (Owner × COp V)} {rows : List ℕ} (h : Inv constants done s calls rows)
    {ops : List (ROp V)} (hs : s.assignRegion constants ops = .ok (s', new)) :
    ∃ rows', Inv constants (done ++ [ops]) s' (calls ++ new) rows' := by
  set start := (shape done.length ops).columns.foldl (fun r c => max r (s.columns c)) 0 with hstart
  set columns := (shape done.length ops).columns.foldl
    (fun m c => Function.update m c (start + (shape done.length ops).rows)) s.columns with hcolumns
  have hcol : ∀ c, columns c = if c ∈ (shape done.length ops).columns
      then start + (shape done.length ops).rows else s.columns c := fun c => foldl_update _ _ _ _
  have hge : ∀ c ∈ (shape done.length ops).columns, s.columns c ≤ start :=
    (foldl_max_columns _ _ _).2
  have hmono : ∀ c, s.columns c ≤ columns c := by
    intro c
    rw [hcol]
    split_ifs with hc
    · have := hge c hc; omega
    · exact le_rfl
  have hnewuse : ∀ c x, Uses (start, shape done.length ops) c x → s.columns c ≤ x ∧ x < columns c := by
    rintro c x ⟨h1, h2, h3⟩
    have := hge c h1
    rw [hcol, if_pos h1]
    exact ⟨by omega, h3⟩
  -- the new start row
  have hget : ∀ {i r}, (s.regions ++ [start])[i]? = some r ↔
      s.regions[i]? = some r ∨ (i = done.length ∧ r = start) := by
    intro i r; rw [getElem?_concat, h.len]
  have hgetd : ∀ {i o}, (done ++ [ops])[i]? = some o ↔
      done[i]? = some o ∨ (i = done.length ∧ o = ops) := getElem?_concat
  have hlt : ∀ {i o}, done[i]? = some o → i < done.length :=
    fun hi => (List.getElem?_eq_some_iff.1 hi).1
  have hlt' : ∀ {i r}, s.regions[i]? = some r → i < done.length :=
    fun hi => h.len ▸ (List.getElem?_eq_some_iff.1 hi).1
  unfold Single.assignRegion at hs
  dsimp only at hs
  rw [h.len, ← hstart, ← hcolumns] at hs
  rcases hpr : placeRegion (s.regions ++ [start]) done.length ops with _ | rcalls
  · rw [hpr] at hs; cases hs
  rw [hpr] at hs
  have hplaced : ∀ i o, (done ++ [ops])[i]? = some o → ∀ op ∈ o, ∃ cs,
      place (s.regions ++ [start]) i op = some cs := by
    intro i o hi op hop
    rcases hgetd.1 hi with hi | ⟨rfl, rfl⟩
    · obtain ⟨cs, hcs⟩ := h.placed i o hi op hop
      exact ⟨cs, place_append hcs⟩
    · have hpr' := hpr
      simp only [placeRegion, Option.map_eq_some_iff] at hpr'
      obtain ⟨a, ha, -⟩ := hpr'
      by_contra hcon
      have hn : place (s.regions ++ [start]) done.length op = none := by
        rcases hh : place (s.regions ++ [start]) done.length op with _ | l
        · rfl
        · exact absurd ⟨l, hh⟩ hcon
      obtain ⟨y₁, y₂, hy⟩ := List.append_of_mem hop
      rw [hy, List.mapM_append] at ha
      simp only [Option.bind_eq_bind, Option.bind_eq_some_iff, List.mapM_cons, hn] at ha
      obtain ⟨_, _, _, ⟨_, hf, _⟩, _⟩ := ha
      cases hf
  -- the calls of the regions
  have hregmem : ∀ p : Owner × COp V, ((∃ i o, (done ++ [ops])[i]? = some o ∧ p.1 = .region i ∧
      ∃ op ∈ o, ∃ cs, place (s.regions ++ [start]) i op = some cs ∧ p.2 ∈ cs) ↔
      (∃ i o, done[i]? = some o ∧ p.1 = .region i ∧ ∃ op ∈ o, ∃ cs,
        place s.regions i op = some cs ∧ p.2 ∈ cs) ∨ p ∈ rcalls) := by
    intro p
    rw [placeRegion_mem hpr]
    constructor
    · rintro ⟨i, o, hi, h1, op, hop, cs, hcs, hp⟩
      rcases hgetd.1 hi with hi | ⟨rfl, rfl⟩
      · left
        obtain ⟨cs', hcs'⟩ := h.placed i o hi op hop
        rw [place_append hcs'] at hcs
        cases hcs
        exact ⟨i, o, hi, h1, op, hop, _, hcs', hp⟩
      · right
        exact ⟨h1, op, hop, cs, hcs, hp⟩
    · rintro (⟨i, o, hi, h1, op, hop, cs, hcs, hp⟩ | ⟨h1, op, hop, cs, hcs, hp⟩)
      · exact ⟨i, o, hgetd.2 (Or.inl hi), h1, op, hop, cs, place_append hcs, hp⟩
      · exact ⟨_, ops, hgetd.2 (Or.inr ⟨rfl, rfl⟩), h1, op, hop, cs, hcs, hp⟩
  -- the regions stay apart
  have hdisj : ∀ i j oi oj ri rj, (done ++ [ops])[i]? = some oi → (done ++ [ops])[j]? = some oj →
      (s.regions ++ [start])[i]? = some ri → (s.regions ++ [start])[j]? = some rj → ∀ c x,
      Uses (ri, shape i oi) c x → Uses (rj, shape j oj) c x → i = j := by
    intro i j oi oj ri rj hi hj hri hrj c x hu hv
    rcases hgetd.1 hi with gi | ⟨rfl, rfl⟩ <;> rcases hgetd.1 hj with gj | ⟨rfl, hoj⟩
    · have h1 : s.regions[i]? = some ri := by
        rcases hget.1 hri with h1 | ⟨h1, -⟩
        · exact h1
        · exact absurd (hlt gi) (by omega)
      have h2 : s.regions[j]? = some rj := by
        rcases hget.1 hrj with h1 | ⟨h1, -⟩
        · exact h1
        · exact absurd (hlt gj) (by omega)
      exact h.disjoint i j oi oj ri rj gi gj h1 h2 c x hu hv
    · exfalso
      have h1 : s.regions[i]? = some ri := by
        rcases hget.1 hri with h1 | ⟨h1, -⟩
        · exact h1
        · exact absurd (hlt gi) (by omega)
      have h2 : rj = start := by
        rcases hget.1 hrj with h1 | ⟨-, h1⟩
        · exact absurd (hlt' h1) (by omega)
        · exact h1
      subst h2
      have := h.below i oi ri gi h1 c x hu
      rw [hoj] at hv
      have := (hnewuse c x hv).1
      omega
    · exfalso
      have h1 : s.regions[j]? = some rj := by
        rcases hget.1 hrj with h1 | ⟨h1, -⟩
        · exact h1
        · exact absurd (hlt gj) (by omega)
      have h2 : ri = start := by
        rcases hget.1 hri with h1 | ⟨-, h1⟩
        · exact absurd (hlt' h1) (by omega)
        · exact h1
      subst h2
      have := h.below j oj rj gj h1 c x hv
      have := (hnewuse c x hu).1
      omega
    · rfl
  have hbelow : ∀ i o r, (done ++ [ops])[i]? = some o → (s.regions ++ [start])[i]? = some r →
      ∀ c x, Uses (r, shape i o) c x → x < columns c := by
    intro i o r hi hr c x hu
    rcases hgetd.1 hi with hi | ⟨rfl, rfl⟩
    · have h1 : s.regions[i]? = some r := by
        rcases hget.1 hr with h1 | ⟨h1, -⟩
        · exact h1
        · exact absurd (hlt hi) (by omega)
      exact lt_of_lt_of_le (h.below i o r hi h1 c x hu) (hmono c)
    · have h2 : r = start := by
        rcases hget.1 hr with h1 | ⟨-, h1⟩
        · exact absurd (hlt' h1) (by omega)
        · exact h1
      subst h2
      exact (hnewuse c x hu).2
  have hrowsfree : ∀ i o r, (done ++ [ops])[i]? = some o → (s.regions ++ [start])[i]? = some r →
      ∀ c, constants.head? = some c → ∀ row ∈ rows, ¬ Uses (r, shape i o) (.fixed c) row := by
    intro i o r hi hr c hc row hrow hu
    rcases hgetd.1 hi with hi | ⟨rfl, rfl⟩
    · have h1 : s.regions[i]? = some r := by
        rcases hget.1 hr with h1 | ⟨h1, -⟩
        · exact h1
        · exact absurd (hlt hi) (by omega)
      exact h.rowsFree i o r hi h1 c hc row hrow hu
    · have h2 : r = start := by
        rcases hget.1 hr with h1 | ⟨-, h1⟩
        · exact absurd (hlt' h1) (by omega)
        · exact h1
      subst h2
      have := h.rowsBelow c hc row hrow
      have := (hnewuse _ _ hu).1
      omega
  have hlenr : (s.regions ++ [start]).length = (done ++ [ops]).length := by simp [h.len]
  have hcells : ∀ v cell, (v, cell) ∈ done.flatMap constantsOf →
      ∃ r, rowOf (s.regions ++ [start]) cell = some r := fun v cell hm => by
    obtain ⟨r, hr⟩ := h.cells v cell hm
    exact ⟨r, rowOf_append hr⟩
  have hflat : (done ++ [ops]).flatMap constantsOf = done.flatMap constantsOf ++ constantsOf ops := by
    simp
  rcases constants with _ | ⟨c, rest⟩
  · -- no constants column
    dsimp only [orPanic, bind, Except.bind, pure, Except.pure] at hs
    split_ifs at hs with he
    cases hs
    have hrows : rows = [] := by
      by_contra hne
      exact h.head hne rfl
    refine ⟨rows, ⟨hlenr, ?_, h.rowsLen, hplaced, ?_, h.head, ?_, hbelow, ?_, hdisj, h.rowsNodup,
      hrowsfree⟩⟩
    · rw [hflat, he, List.append_nil]; exact h.consts
    · rw [hflat, he, List.append_nil]; exact hcells
    · intro p
      rw [List.mem_append, h.mem, hregmem]
      simp only [List.head?_nil, reduceCtorEq, false_and, exists_false, or_false]
    · intro c hc; cases hc
  · dsimp only [orPanic, bind, Except.bind, pure, Except.pure] at hs
    rcases hm : (constantsOf ops).zipIdx.mapM (fun x => placeConstant (s.regions ++ [start])
      (s.consts + x.2) c (columns (.fixed c) + x.2) x.1.1 x.1.2) with e | cs
    · exfalso
      rw [hm] at hs
      cases hs
    rw [hm] at hs
    cases hs
    set next := columns (.fixed c) with hnext
    set rows' := rows ++ (List.range (constantsOf ops).length).map (next + ·) with hrows'
    have hrowsget : ∀ {k row}, rows'[k]? = some row ↔ rows[k]? = some row ∨
        ∃ j, j < (constantsOf ops).length ∧ k = s.consts + j ∧ row = next + j := by
      intro k row
      rw [hrows']
      by_cases hk : k < rows.length
      · rw [List.getElem?_append_left hk]
        constructor
        · exact Or.inl
        · rintro (h1 | ⟨j, -, h2, -⟩)
          · exact h1
          · have := h.rowsLen; omega
      · rw [List.getElem?_append_right (not_lt.1 hk), List.getElem?_map,
          List.getElem?_eq_none (not_lt.1 hk)]
        simp only [Option.map_eq_some_iff, reduceCtorEq, false_or]
        have hl := h.rowsLen
        constructor
        · rintro ⟨j, hj, rfl⟩
          obtain ⟨h1, h2⟩ := List.getElem?_eq_some_iff.1 hj
          simp only [List.getElem_range] at h2
          simp only [List.length_range] at h1
          exact ⟨j, by omega, by omega, rfl⟩
        · rintro ⟨j, h1, h2, rfl⟩
          refine ⟨j, ?_, rfl⟩
          rw [List.getElem?_eq_some_iff]
          exact ⟨by simp; omega, by simp; omega⟩
    have hmemrows : ∀ {row}, row ∈ rows' ↔ row ∈ rows ∨
        ∃ j, j < (constantsOf ops).length ∧ row = next + j := by
      intro row
      rw [hrows', List.mem_append, List.mem_map]
      simp only [List.mem_range, eq_comm]
    have hconstget : ∀ {k : ℕ} {x : V × Cell},
        (done.flatMap constantsOf ++ constantsOf ops)[k]? = some x ↔
        (done.flatMap constantsOf)[k]? = some x ∨
        ∃ j, k = s.consts + j ∧ (constantsOf ops)[j]? = some x := by
      intro k x
      rw [h.consts]
      by_cases hk : k < (done.flatMap constantsOf).length
      · rw [List.getElem?_append_left hk]
        constructor
        · exact Or.inl
        · rintro (h1 | ⟨j, h2, -⟩)
          · exact h1
          · omega
      · rw [List.getElem?_append_right (not_lt.1 hk), List.getElem?_eq_none (not_lt.1 hk)]
        simp only [reduceCtorEq, false_or]
        constructor
        · intro h1; exact ⟨_, by omega, h1⟩
        · rintro ⟨j, rfl, h1⟩
          rwa [Nat.add_sub_cancel_left]
    have hnewcell : ∀ {j : ℕ} {v : V} {cell : Cell}, (constantsOf ops)[j]? = some (v, cell) →
        ∃ r, rowOf (s.regions ++ [start]) cell = some r := by
      intro j v cell hj
      rcases hh : rowOf (s.regions ++ [start]) cell with _ | r
      · exfalso
        have hz : ((v, cell), j) ∈ (constantsOf ops).zipIdx := List.mem_zipIdx_iff_getElem?.2 hj
        obtain ⟨z₁, z₂, hzz⟩ := List.append_of_mem hz
        rw [hzz, List.mapM_append, List.mapM_cons] at hm
        have hpc : placeConstant (s.regions ++ [start]) (s.consts + j) c (next + j) v cell =
            .error .panic := by
          simp only [placeConstant, hh]; rfl
        simp only [hpc] at hm
        rcases hz1 : z₁.mapM (fun x : (V × Cell) × ℕ => placeConstant (s.regions ++ [start])
          (s.consts + x.2) c (next + x.2) x.1.1 x.1.2) with e' | y
        · rw [hz1] at hm; cases hm
        · rw [hz1] at hm; cases hm
      · exact ⟨r, rfl⟩
    refine ⟨rows', ⟨hlenr, ?_, ?_, hplaced, ?_, by simp, ?_, ?_, ?_, hdisj, ?_, ?_⟩⟩
    · rw [hflat, List.length_append, h.consts]
    · simp [hrows', h.rowsLen]
    · rw [hflat]
      intro v cell hmem
      rcases List.mem_append.1 hmem with hmem | hmem
      · exact hcells v cell hmem
      · obtain ⟨j, hj⟩ := List.mem_iff_getElem?.1 hmem
        exact hnewcell hj
    · intro p
      rw [List.mem_append, List.mem_append, h.mem, hregmem, hflat]
      have hcsmem : p ∈ cs.flatten ↔ ∃ (j : ℕ) (v : V) (cell : Cell) (r : ℕ),
          (constantsOf ops)[j]? = some (v, cell) ∧
          rowOf (s.regions ++ [start]) cell = some r ∧
          (p = (.constant (s.consts + j), .fixed c (next + j) v) ∨
            p = (.constant (s.consts + j), .copy (.fixed c) (next + j) cell.col r)) := by
        simp only [List.mem_flatten, exceptMapM_mem hm]
        constructor
        · rintro ⟨l, ⟨⟨⟨v, cell⟩, j⟩, hmem, hpl⟩, hp⟩
          obtain ⟨r, hr, rfl⟩ := placeConstant_ok hpl
          exact ⟨j, v, cell, r, List.mem_zipIdx_iff_getElem?.1 hmem, hr, by simpa using hp⟩
        · rintro ⟨j, v, cell, r, hj, hr, hp⟩
          refine ⟨[(.constant (s.consts + j), .fixed c (next + j) v),
            (.constant (s.consts + j), .copy (.fixed c) (next + j) cell.col r)],
            ⟨((v, cell), j), List.mem_zipIdx_iff_getElem?.2 hj, ?_⟩, by simpa using hp⟩
          simp only [placeConstant, hr, orPanic]
          rfl
      rw [hcsmem]
      constructor
      · rintro ((h1 | ⟨k, c', row, v, cell, r, h1, h2, h3, h4, h5⟩) | h1 | ⟨j, v, cell, r, h1, h2, h3⟩)
        · exact Or.inl (Or.inl h1)
        · exact Or.inr ⟨k, c', row, v, cell, r, h1, hrowsget.2 (Or.inl h2),
            hconstget.2 (Or.inl h3), rowOf_append h4, h5⟩
        · exact Or.inl (Or.inr h1)
        · exact Or.inr ⟨s.consts + j, c, next + j, v, cell, r, rfl,
            hrowsget.2 (Or.inr ⟨j, (List.getElem?_eq_some_iff.1 h1).1, rfl, rfl⟩),
            hconstget.2 (Or.inr ⟨j, rfl, h1⟩), h2, h3⟩
      · rintro ((h1 | h1) | ⟨k, c', row, v, cell, r, h1, h2, h3, h4, h5⟩)
        · exact Or.inl (Or.inl h1)
        · exact Or.inr (Or.inl h1)
        · cases h1
          rcases hconstget.1 h3 with h3 | ⟨j, rfl, g3⟩
          · left; right
            rcases hrowsget.1 h2 with h2 | ⟨j, -, h6, -⟩
            · obtain ⟨r', hr'⟩ := h.cells v cell (List.mem_of_getElem? h3)
              rw [rowOf_append hr'] at h4
              cases h4
              exact ⟨k, c, row, v, cell, _, rfl, h2, h3, hr', h5⟩
            · have := (List.getElem?_eq_some_iff.1 h3).1
              rw [← h.consts] at this
              omega
          · right; right
            rcases hrowsget.1 h2 with h2 | ⟨j', -, h6, rfl⟩
            · have := (List.getElem?_eq_some_iff.1 h2).1
              rw [h.rowsLen] at this
              omega
            · have : j' = j := by omega
              subst this
              exact ⟨j', v, cell, r, g3, h4, h5⟩
    · intro i o r hi hr d x hu
      have h1 := hbelow i o r hi hr d x hu
      by_cases hd : d = .fixed c
      · subst hd
        simp only [Function.update_self]
        omega
      · simp only [Function.update_of_ne hd]; exact h1
    · intro d hd row hrow
      cases hd
      simp only [Function.update_self]
      rcases hmemrows.1 hrow with hrow | ⟨j, hj, rfl⟩
      · have h1 := h.rowsBelow c rfl row hrow
        have h2 := hmono (.fixed c)
        omega
      · omega
    · rw [hrows', List.nodup_append]
      refine ⟨h.rowsNodup, List.nodup_range.map fun a b hab => by simpa using hab, ?_⟩
      intro a ha b hb hab
      obtain ⟨j, -, rfl⟩ := List.mem_map.1 hb
      have h1 := h.rowsBelow c rfl a ha
      have h2 := hmono (.fixed c)
      omega
    · intro i o r hi hr d hd row hrow hu
      rcases hmemrows.1 hrow with hrow | ⟨j, hj, rfl⟩
      · exact hrowsfree i o r hi hr d hd row hrow hu
      · cases hd
        have := hbelow i o r hi hr _ _ hu
        omega

theorem single_inv {constants : List ℕ} {regions : List (List (ROp V))} {s : Single}
    {calls : List (Owner × COp V)} (h : single constants regions = .ok (s, calls)) :
    ∃ rows, Inv constants regions s calls rows := by
  suffices hs : ∀ (todo done : List (List (ROp V))) (acc : Single × List (Owner × COp V))
      (rows : List ℕ), Inv constants done acc.1 acc.2 rows →
      todo.foldlM (fun acc ops => do
        let (s, calls) ← Single.assignRegion constants acc.1 ops
        pure (s, acc.2 ++ calls)) acc = Except.ok (ε := Err) (s, calls) →
      ∃ rows, Inv constants (done ++ todo) s calls rows by
    have := hs regions [] (⟨[], fun _ => 0, 0⟩, []) [] (Inv.init constants) h
    simpa using this
  intro todo
  induction todo with
  | nil =>
    intro done acc rows hi hr
    cases hr
    exact ⟨rows, by simpa using hi⟩
  | cons ops todo ih =>
    intro done acc rows hi hr
    rw [List.foldlM_cons] at hr
    rcases ha : acc.1.assignRegion constants ops with e | ⟨s', new⟩
    · rw [ha] at hr; cases hr
    · rw [ha] at hr
      obtain ⟨rows', hi'⟩ := hi.step ha
      obtain ⟨rows'', h2⟩ := ih (done ++ [ops]) (s', acc.2 ++ new) rows' hi' hr
      exact ⟨rows'', by simpa using h2⟩

/-- **C19**: no cell of the circuit is assigned by two regions, by a region and a constant, or by
two constants. -/
theorem single_no_overlap {constants : List ℕ} {regions : List (List (ROp V))}
    {s : Single} {calls : List (Owner × COp V)} (h : single constants regions = .ok (s, calls))
    {p q : Owner × COp V} (hp : p ∈ calls) (hq : q ∈ calls) {t : RegionColumn × ℕ}
    (hpt : p.2.target = some t) (hqt : q.2.target = some t) : p.1 = q.1 := by
  obtain ⟨rows, hi⟩ := single_inv h
  have huse : ∀ p : Owner × COp V, (∃ i ops, regions[i]? = some ops ∧ p.1 = .region i ∧ ∃ op ∈ ops,
      ∃ cs, place s.regions i op = some cs ∧ p.2 ∈ cs) → p.2.target = some t →
      ∃ i r ops, p.1 = .region i ∧ s.regions[i]? = some r ∧ regions[i]? = some ops ∧
        Uses (r, shape i ops) t.1 t.2 := by
    rintro p ⟨i, ops, hi, h1, op, hop, cs, hpl, hmem⟩ ht
    obtain ⟨r, o, hr, ho, hto⟩ := place_mem hpl hmem ht
    obtain ⟨hc, hrow⟩ := shape_covers (i := i) hop ho
    refine ⟨i, r, ops, h1, hr, hi, hc, ?_, ?_⟩ <;> dsimp only <;> omega
  have hmix : ∀ p q : Owner × COp V, (∃ i ops, regions[i]? = some ops ∧ p.1 = .region i ∧
      ∃ op ∈ ops, ∃ cs, place s.regions i op = some cs ∧ p.2 ∈ cs) → p.2.target = some t →
      (∃ (k c row : ℕ) (v : V) (cell : Cell) (r : ℕ), constants.head? = some c ∧
        rows[k]? = some row ∧ (regions.flatMap constantsOf)[k]? = some (v, cell) ∧
        rowOf s.regions cell = some r ∧ (q = (.constant k, .fixed c row v) ∨
          q = (.constant k, .copy (.fixed c) row cell.col r))) → q.2.target = some t → False := by
    rintro p q hp hpt ⟨k, c, row, v, cell, r, h1, h2, h3, h4, rfl | rfl⟩ hqt
    · obtain ⟨i, r', ops, e1, e2, e3, e4⟩ := huse p hp hpt
      cases hqt
      exact hi.rowsFree i ops r' e3 e2 c h1 row (List.mem_of_getElem? h2) e4
    · cases hqt
  rcases (hi.mem p).1 hp with hp | hp <;> rcases (hi.mem q).1 hq with hq | hq
  · obtain ⟨i, r, ops, e1, e2, e3, e4⟩ := huse p hp hpt
    obtain ⟨j, r', ops', f1, f2, f3, f4⟩ := huse q hq hqt
    rw [e1, f1, hi.disjoint i j ops ops' r r' e3 f3 e2 f2 _ _ e4 f4]
  · exact (hmix p q hp hpt hq hqt).elim
  · exact (hmix q p hq hqt hp hpt).elim
  · obtain ⟨k, c, row, v, cell, r, h1, h2, h3, h4, rfl | rfl⟩ := hp
    · obtain ⟨k', c', row', v', cell', r', g1, g2, g3, g4, rfl | rfl⟩ := hq
      · cases hpt
        cases hqt
        obtain ⟨l1, x1⟩ := List.getElem?_eq_some_iff.1 h2
        obtain ⟨l2, x2⟩ := List.getElem?_eq_some_iff.1 g2
        rw [(hi.rowsNodup.getElem_inj_iff).1 (x1.trans x2.symm)]
      · cases hqt
    · cases hpt

/-- **C19**: region `i` assigns exactly the cells its closure names, counted from its start row. -/
theorem single_regions {constants : List ℕ} {regions : List (List (ROp V))}
    {s : Single} {calls : List (Owner × COp V)} (h : single constants regions = .ok (s, calls)) :
    s.regions.length = regions.length ∧ ∀ i ops r, regions[i]? = some ops →
      s.regions[i]? = some r → RegionCalls s.regions calls i ops r := by
  obtain ⟨rows, hi⟩ := single_inv h
  refine ⟨hi.len, fun i ops r hio hr => regionCalls_of hr (hi.placed i ops hio) fun a => ?_⟩
  rw [hi.mem]
  constructor
  · rintro (⟨j, ops', h1, h2, h3⟩ | ⟨k, c, row, v, cell, r, -, -, -, -, h5 | h5⟩)
    · cases h2
      rw [hio] at h1
      cases h1
      exact h3
    · simp at h5
    · simp at h5
  · intro h1
    exact Or.inl ⟨i, ops, hio, rfl, h1⟩

/-- **C19**: every constant requested is assigned to a cell of the first constants column and
constrained equal to the cell that requested it. -/
theorem single_constants {constants : List ℕ} {regions : List (List (ROp V))}
    {s : Single} {calls : List (Owner × COp V)} (h : single constants regions = .ok (s, calls))
    {k : ℕ} {v : V} {cell : Cell} (hk : (regions.flatMap constantsOf)[k]? = some (v, cell)) :
    ∃ col row r, constants.head? = some col ∧ s.regions[cell.region]? = some r ∧
      (Owner.constant k, COp.fixed col row v) ∈ calls ∧
      (Owner.constant k, COp.copy (.fixed col) row cell.col (r + cell.offset)) ∈ calls := by
  obtain ⟨rows, hi⟩ := single_inv h
  obtain ⟨r, hr⟩ := hi.cells v cell (List.mem_of_getElem? hk)
  have hlt := (List.getElem?_eq_some_iff.1 hk).1
  rw [← hi.consts, ← hi.rowsLen] at hlt
  obtain ⟨row, hrow⟩ : ∃ row, rows[k]? = some row := ⟨_, List.getElem?_eq_getElem hlt⟩
  have hne : constants ≠ [] := hi.head (List.ne_nil_of_length_pos (by omega))
  obtain ⟨c, hc⟩ : ∃ c, constants.head? = some c := by
    rcases constants with _ | ⟨c, l⟩
    · exact absurd rfl hne
    · exact ⟨c, rfl⟩
  have hr' := hr
  simp only [rowOf, Option.map_eq_some_iff] at hr'
  obtain ⟨r₀, hr₀, rfl⟩ := hr'
  refine ⟨c, row, r₀, hc, hr₀, ?_, ?_⟩
  · exact (hi.mem _).2 (Or.inr ⟨k, c, row, v, cell, _, hc, hrow, hk, hr, Or.inl rfl⟩)
  · exact (hi.mem _).2 (Or.inr ⟨k, c, row, v, cell, _, hc, hrow, hk, hr, Or.inr rfl⟩)

theorem assignRegion_result (constants : List ℕ) (s : Single) (ops : List (ROp V))
    (hcells : ∀ op ∈ ops, ∀ cell ∈ op.cells, cell.region ≤ s.regions.length) :
    if constants = [] ∧ constantsOf ops ≠ [] then
      s.assignRegion constants ops = .error .notEnoughColumnsForConstants
    else ∃ s' new, s.assignRegion constants ops = .ok (s', new) ∧
      s'.regions.length = s.regions.length + 1 := by
  set start := (shape s.regions.length ops).columns.foldl (fun r c => max r (s.columns c)) 0
    with hstart
  obtain ⟨rc, hrc⟩ := placeRegion_some (starts := s.regions ++ [start]) (i := s.regions.length)
    (ops := ops) (by simp) (fun op hop cell hc => by
      have := hcells op hop cell hc; simp; omega)
  unfold Single.assignRegion
  dsimp only
  rw [← hstart, hrc]
  rcases constants with _ | ⟨c, rest⟩
  · simp only [true_and, orPanic, bind, Except.bind]
    by_cases he : constantsOf ops = []
    · rw [if_neg (not_not.2 he), if_pos he]
      exact ⟨_, _, rfl, by simp⟩
    · rw [if_pos he, if_neg he]
  · rw [if_neg (by simp)]
    obtain ⟨cs, hcs⟩ := exceptMapM_of (l := (constantsOf ops).zipIdx)
      (f := fun x => placeConstant (s.regions ++ [start]) (s.consts + x.2) c
        ((shape s.regions.length ops).columns.foldl (fun m c => Function.update m c
          (start + (shape s.regions.length ops).rows)) s.columns (.fixed c) + x.2) x.1.1 x.1.2) (by
        rintro ⟨⟨v, cell⟩, j⟩ hmem
        have hin := mem_constantsOf.1 (List.mem_of_getElem? (List.mem_zipIdx_iff_getElem?.1 hmem))
        have hle := hcells _ hin cell (by simp [ROp.cells])
        have hlt : cell.region < (s.regions ++ [start]).length := by simp; omega
        exact ⟨_, by
          simp only [placeConstant, rowOf, List.getElem?_eq_getElem hlt, Option.map_some, orPanic]
          rfl⟩)
    dsimp only [orPanic, bind, Except.bind]
    rw [hcs]
    exact ⟨_, _, rfl, by simp⟩

/-- **C19**: the planner does not panic, and fails exactly when a constant is requested and there
is no constants column. -/
theorem single_result {constants : List ℕ} {regions : List (List (ROp V))}
    (hcausal : Causal regions) :
    if constants = [] ∧ regions.flatMap constantsOf ≠ [] then
      single constants regions = .error .notEnoughColumnsForConstants
    else ∃ r, single constants regions = .ok r := by
  suffices hs : ∀ (todo : List (List (ROp V))) (acc : Single × List (Owner × COp V)),
      (∀ (i : ℕ) (ops : List (ROp V)), todo[i]? = some ops → ∀ op ∈ ops, ∀ cell ∈ op.cells,
        cell.region ≤ acc.1.regions.length + i) →
      if constants = [] ∧ todo.flatMap constantsOf ≠ [] then
        todo.foldlM (fun acc ops => do
          let (s, calls) ← Single.assignRegion constants acc.1 ops
          pure (s, acc.2 ++ calls)) acc = Except.error Err.notEnoughColumnsForConstants
      else ∃ r, todo.foldlM (fun acc ops => do
          let (s, calls) ← Single.assignRegion constants acc.1 ops
          pure (s, acc.2 ++ calls)) acc = Except.ok (ε := Err) r by
    exact hs regions (⟨[], fun _ => 0, 0⟩, []) (by simpa [Causal] using hcausal)
  intro todo
  induction todo with
  | nil => intro acc _; simp [pure, Except.pure]
  | cons ops todo ih =>
    intro acc hc
    have h1 := assignRegion_result constants acc.1 ops
      (fun op hop cell hcell => by simpa using hc 0 ops rfl op hop cell hcell)
    simp only [List.foldlM_cons, List.flatMap_cons, ne_eq, List.append_eq_nil_iff]
    by_cases he : constants = [] ∧ constantsOf ops ≠ []
    · rw [if_pos he] at h1
      rw [if_pos ⟨he.1, fun h => he.2 h.1⟩, h1]
      rfl
    · rw [if_neg he] at h1
      obtain ⟨s', new, h2, h3⟩ := h1
      have h4 := ih (s', acc.2 ++ new) (fun i o hi op hop cell hcell => by
        have := hc (i + 1) o (by simpa using hi) op hop cell hcell
        dsimp only
        omega)
      rw [h2]
      have hiff : (constants = [] ∧ ¬ (constantsOf ops = [] ∧ todo.flatMap constantsOf = [])) ↔
          (constants = [] ∧ todo.flatMap constantsOf ≠ []) := by
        constructor
        · rintro ⟨h5, h6⟩
          refine ⟨h5, fun h7 => h6 ⟨?_, h7⟩⟩
          by_contra h8
          exact he ⟨h5, h8⟩
        · rintro ⟨h5, h6⟩
          exact ⟨h5, fun h7 => h6 h7.2⟩
      simp only [hiff]
      exact h4

/-! ## A circuit with three regions -/

/-- Three regions: two in the same advice column, one of them using a fixed column for constants,
and a constant requested by the last one. -/
def demo : List (List (ROp ℕ)) :=
  [[.enable 0 0, .advice 0 0 5, .advice 1 0 6, .advice 0 1 7],
   [.fixed 3 0 9, .advice 1 0 1],
   [.advice 0 0 2, .constant ⟨2, 0, .advice 0⟩ 11, .equal ⟨2, 0, .advice 0⟩ ⟨0, 1, .advice 0⟩]]

theorem demo_causal : Causal demo := by
  intro i ops h
  match i with
  | 0 => cases h; simp [ROp.cells]
  | 1 => cases h; simp [ROp.cells]
  | 2 => cases h; simp [ROp.cells]
  | i + 3 => simp [demo] at h

/-- The single-pass planner on it: start rows 0, 2, 2, and the constant in row 3 of fixed
column 3. -/
example : (single [3] demo).toOption.map (fun r => (r.1.regions, r.2.filter (·.1 = .constant 0))) =
    some ([0, 2, 2], [(.constant 0, .fixed 3 3 11), (.constant 0, .copy (.fixed 3) 3 (.advice 0) 2)])
    := by decide

example : single [] demo = .error .notEnoughColumnsForConstants := by
  have := single_result (constants := []) demo_causal
  rwa [if_pos ⟨rfl, by decide⟩] at this

/-- With a second constants column there is always a free cell for the V1 planner. -/
example : ∃ r, v1 [3, 8] demo = .ok r := by
  obtain ⟨starts, n, free, hlen, hn, hfree, h⟩ :=
    v1_result (constants := [3, 8]) (by simp) demo_causal
  obtain ⟨a, b, c, rfl⟩ : ∃ a b c, starts = [a, b, c] := by
    rcases starts with _ | ⟨a, _ | ⟨b, _ | ⟨c, _ | ⟨d, l⟩⟩⟩⟩ <;> simp [demo] at hlen
    exact ⟨a, b, c, rfl⟩
  have hpos : 0 < n := by
    have hrows : (shape 0 ([.enable 0 0, .advice 0 0 5, .advice 1 0 6, .advice 0 1 7] :
        List (ROp ℕ))).rows = 2 := by decide
    have hcols : RegionColumn.advice 0 ∈ (shape 0 ([.enable 0 0, .advice 0 0 5, .advice 1 0 6,
        .advice 0 1 7] : List (ROp ℕ))).columns := by decide
    have := hn.1 (a, shape 0 [.enable 0 0, .advice 0 0 5, .advice 1 0 6, .advice 0 1 7])
      (by simp [shapes, demo]) (.advice 0) a
      ⟨hcols, le_rfl, by dsimp only; rw [hrows]; omega⟩
    omega
  have hmem : ((8, 0) : ℕ × ℕ) ∈ free := by
    rw [hfree]
    refine ⟨by simp, hpos, fun q hq hu => ?_⟩
    have h1 : q.2 ∈ shapes demo := (List.of_mem_zip (a := q.1) (b := q.2) hq).2
    have h2 : ∀ s ∈ shapes demo, RegionColumn.fixed 8 ∉ s.columns := by decide
    exact h2 _ h1 hu.1
  have hcard : 1 ≤ free.card := Finset.card_pos.2 ⟨_, hmem⟩
  rw [if_neg (by have : (demo.flatMap constantsOf).length = 1 := by decide
                 omega)] at h
  obtain ⟨calls, hc⟩ := h
  exact ⟨_, hc⟩

/-- A circuit that uses no row has no room for a constant. -/
example : v1 [3] [[ROp.constant ⟨0, 0, .advice 0⟩ 11]] = .error .notEnoughColumnsForConstants := by
  obtain ⟨starts, n, free, -, hn, hfree, h⟩ := v1_result (V := ℕ) (constants := [3])
    (regions := [[ROp.constant ⟨0, 0, .advice 0⟩ 11]]) (by simp) (by
      intro i ops h
      match i with
      | 0 => cases h; simp [ROp.cells]
      | i + 1 => simp at h)
  have hn0 : n = 0 := by
    rcases hn.2 with h0 | ⟨p, hp, c, hu⟩
    · exact h0
    · have h1 : p.2 ∈ shapes [[ROp.constant ⟨0, 0, .advice 0⟩ 11]] :=
        (List.of_mem_zip (a := p.1) (b := p.2) hp).2
      simp only [shapes, List.zipIdx_cons, List.zipIdx_nil, List.map_cons, List.map_nil,
        List.mem_singleton] at h1
      have := hu.1
      rw [h1] at this
      simp [shape, Shape.call, ROp.target] at this
  have hempty : free = ∅ := by
    ext p
    rw [hfree]
    simp [hn0]
  rw [hempty, if_pos (by decide)] at h
  exact h

end Verif.Floor
