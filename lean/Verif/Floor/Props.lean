import Mathlib.Data.Finset.Dedup
import Mathlib.Data.List.Range
import Mathlib.Data.List.Nodup
import Mathlib.Data.List.GetD
import Verif.Floor.Slot

/-!
# The floor planners (C18, C19)
-/

namespace Verif.Floor

variable {V : Type}

/-- Specification: the cell of the circuit assigned by a call. -/
def COp.target : COp V → Option (RegionColumn × ℕ)
  | .enable s r => some (.selector s, r)
  | .advice c r _ => some (.advice c, r)
  | .fixed c r _ => some (.fixed c, r)
  | .copy .. => none

/-- Specification: the cells mentioned by a call of a closure. -/
def ROp.cells : ROp V → List Cell
  | .constant cell _ => [cell]
  | .equal a b => [a, b]
  | .inst cell _ _ => [cell]
  | _ => []

/-- A closure can only mention cells of its own region and of the regions before it: a `Cell` is the
result of an assignment. -/
def Causal (regions : List (List (ROp V))) : Prop :=
  ∀ (i : ℕ) (ops : List (ROp V)), regions[i]? = some ops → ∀ op ∈ ops, ∀ cell ∈ op.cells,
    cell.region ≤ i

/-! ## Planning -/

/-- The shapes of the regions. -/
def shapes (regions : List (List (ROp V))) : List Shape :=
  regions.zipIdx.map fun r => shape r.2 r.1

theorem shapes_getElem? (regions : List (List (ROp V))) (i : ℕ) :
    (shapes regions)[i]? = (regions[i]?).map (shape i) := by
  simp [shapes, Option.map_map, Function.comp_def]

theorem shapes_ok (regions : List (List (ROp V))) : ∀ s ∈ shapes regions, s.Ok := by
  intro s hs
  simp only [shapes, List.mem_map] at hs
  obtain ⟨r, -, rfl⟩ := hs
  exact shape_ok _ _

theorem shapes_index (regions : List (List (ROp V))) :
    (shapes regions).Pairwise fun a b => a.index < b.index := by
  rw [List.pairwise_iff_getElem]
  intro i j hi hj hij
  simp only [shapes, List.getElem_map, List.getElem_zipIdx, shape_index]
  omega

/-- What a plan must be. -/
structure Plan (regions : List (List (ROp V))) (starts : List ℕ) (m : CircuitAllocations) :
    Prop where
  eq : slotInBiggestAdviceFirst (shapes regions) = some (starts, m)
  length : starts.length = regions.length
  placed : Placed (starts.zip (shapes regions)) m

theorem exists_plan (regions : List (List (ROp V))) : ∃ starts m, Plan regions starts m := by
  obtain ⟨starts, m, h1, h2, h3⟩ :=
    slotInBiggestAdviceFirst_ok (shapes regions) (shapes_ok _) (shapes_index _)
  exact ⟨starts, m, h1, by simpa [shapes] using h2, h3⟩

/-- The region `i` in the plan. -/
theorem Plan.mem {regions : List (List (ROp V))} {starts : List ℕ} {m : CircuitAllocations}
    (_h : Plan regions starts m) {i : ℕ} {r : ℕ} {ops : List (ROp V)} (hr : starts[i]? = some r)
    (ho : regions[i]? = some ops) : (starts.zip (shapes regions))[i]? = some (r, shape i ops) := by
  rw [List.getElem?_zip_eq_some]
  exact ⟨hr, by rw [shapes_getElem?, ho]; rfl⟩

/-- **C18**: no cell of the circuit is used by two regions. -/
theorem Plan.disjoint {regions : List (List (ROp V))} {starts : List ℕ} {m : CircuitAllocations}
    (h : Plan regions starts m) {i j : ℕ} {ri rj : ℕ} {oi oj : List (ROp V)}
    (hi : starts[i]? = some ri) (hi' : regions[i]? = some oi) (hj : starts[j]? = some rj)
    (hj' : regions[j]? = some oj) {c : RegionColumn} {x : ℕ} (h1 : Uses (ri, shape i oi) c x)
    (h2 : Uses (rj, shape j oj) c x) : i = j := by
  by_contra hij
  have ei := h.mem hi hi'
  have ej := h.mem hj hj'
  obtain ⟨li, gi⟩ := List.getElem?_eq_some_iff.1 ei
  obtain ⟨lj, gj⟩ := List.getElem?_eq_some_iff.1 ej
  have hp := List.pairwise_iff_getElem.1 h.placed.disjoint
  rcases lt_or_gt_of_ne hij with hlt | hlt
  · have := hp i j li lj hlt
    rw [gi, gj] at this
    exact this c x h1 h2
  · have := hp j i lj li hlt
    rw [gi, gj] at this
    exact this c x h2 h1

/-! ## The calls of the regions -/

/-- A call of a closure at `off` cells below the start is a call `r` rows further down. -/
theorem place_mem {starts : List ℕ} {i : ℕ} {op : ROp V} {l : List (COp V)}
    (h : place starts i op = some l) {a : COp V} (ha : a ∈ l) {t : RegionColumn × ℕ}
    (ht : a.target = some t) :
    ∃ r o, starts[i]? = some r ∧ op.target = some (t.1, o) ∧ t.2 = r + o := by
  cases op with
  | enable s o =>
    simp only [place, Option.bind_eq_bind, Option.bind_eq_some_iff, Option.some.injEq] at h
    obtain ⟨r, hr, rfl⟩ := h
    rw [List.mem_singleton.1 ha] at ht
    cases ht
    exact ⟨r, o, hr, rfl, rfl⟩
  | advice c o v =>
    simp only [place, Option.bind_eq_bind, Option.bind_eq_some_iff, Option.some.injEq] at h
    obtain ⟨r, hr, rfl⟩ := h
    rw [List.mem_singleton.1 ha] at ht
    cases ht
    exact ⟨r, o, hr, rfl, rfl⟩
  | fixed c o v =>
    simp only [place, Option.bind_eq_bind, Option.bind_eq_some_iff, Option.some.injEq] at h
    obtain ⟨r, hr, rfl⟩ := h
    rw [List.mem_singleton.1 ha] at ht
    cases ht
    exact ⟨r, o, hr, rfl, rfl⟩
  | constant cell v =>
    simp only [place, Option.some.injEq] at h
    subst h
    simp at ha
  | equal x y =>
    simp only [place, Option.bind_eq_bind, Option.bind_eq_some_iff, Option.some.injEq] at h
    obtain ⟨r, hr, r', hr', rfl⟩ := h
    rw [List.mem_singleton.1 ha] at ht
    cases ht
  | inst cell column row =>
    simp only [place, Option.bind_eq_bind, Option.bind_eq_some_iff, Option.some.injEq] at h
    obtain ⟨r, hr, rfl⟩ := h
    rw [List.mem_singleton.1 ha] at ht
    cases ht

theorem mapM_some_mem {α β : Type} {f : α → Option β} {l : List α} {r : List β}
    (h : l.mapM f = some r) : ∀ b, b ∈ r ↔ ∃ a ∈ l, f a = some b := by
  induction l generalizing r with
  | nil => simp at h; subst h; simp
  | cons a l ih =>
    rw [List.mapM_cons] at h
    simp only [Option.bind_eq_bind, Option.bind_eq_some_iff, Option.pure_def,
      Option.some.injEq] at h
    obtain ⟨b, hb, r', hr', rfl⟩ := h
    intro x
    simp only [List.mem_cons, ih hr', exists_eq_or_imp, hb, Option.some.injEq, eq_comm (a := x)]

theorem mapM_some_of {α β : Type} {f : α → Option β} {l : List α} (h : ∀ a ∈ l, ∃ b, f a = some b) :
    ∃ r, l.mapM f = some r := by
  induction l with
  | nil => exact ⟨[], by simp⟩
  | cons a l ih =>
    obtain ⟨b, hb⟩ := h a (List.mem_cons_self ..)
    obtain ⟨r, hr⟩ := ih fun x hx => h x (List.mem_cons_of_mem _ hx)
    exact ⟨b :: r, by rw [List.mapM_cons, hb, hr]; rfl⟩

theorem placeRegion_mem {starts : List ℕ} {i : ℕ} {ops : List (ROp V)} {l : List (Owner × COp V)}
    (h : placeRegion starts i ops = some l) (p : Owner × COp V) :
    p ∈ l ↔ p.1 = .region i ∧ ∃ op ∈ ops, ∃ cs, place starts i op = some cs ∧ p.2 ∈ cs := by
  simp only [placeRegion, Option.map_eq_some_iff] at h
  obtain ⟨r, hr, rfl⟩ := h
  simp only [List.mem_map, List.mem_flatten, mapM_some_mem hr]
  obtain ⟨o, a⟩ := p
  constructor
  · rintro ⟨b, ⟨cs, ⟨op, hop, hpl⟩, hb⟩, heq⟩
    cases heq
    exact ⟨rfl, op, hop, cs, hpl, hb⟩
  · rintro ⟨h1, op, hop, cs, hpl, hb⟩
    simp only at h1 hb
    subst h1
    exact ⟨a, ⟨cs, ⟨op, hop, hpl⟩, hb⟩, rfl⟩

theorem place_some {starts : List ℕ} {i : ℕ} {op : ROp V} (hi : i < starts.length)
    (hc : ∀ cell ∈ op.cells, cell.region < starts.length) : ∃ l, place starts i op = some l := by
  have hrow : ∀ cell : Cell, cell.region < starts.length → ∃ r, rowOf starts cell = some r :=
    fun cell h => ⟨_, by rw [rowOf, List.getElem?_eq_getElem h]; rfl⟩
  cases op with
  | enable s o => exact ⟨_, by simp only [place, List.getElem?_eq_getElem hi]; rfl⟩
  | advice c o v => exact ⟨_, by simp only [place, List.getElem?_eq_getElem hi]; rfl⟩
  | fixed c o v => exact ⟨_, by simp only [place, List.getElem?_eq_getElem hi]; rfl⟩
  | constant cell v => exact ⟨[], rfl⟩
  | equal a b =>
    obtain ⟨ra, ha⟩ := hrow a (hc a (by simp [ROp.cells]))
    obtain ⟨rb, hb⟩ := hrow b (hc b (by simp [ROp.cells]))
    exact ⟨_, by simp only [place, ha, hb]; rfl⟩
  | inst cell column row =>
    obtain ⟨r, hr⟩ := hrow cell (hc cell (by simp [ROp.cells]))
    exact ⟨_, by simp only [place, hr]; rfl⟩

theorem placeRegion_some {starts : List ℕ} {i : ℕ} {ops : List (ROp V)} (hi : i < starts.length)
    (hc : ∀ op ∈ ops, ∀ cell ∈ op.cells, cell.region < starts.length) :
    ∃ l, placeRegion starts i ops = some l := by
  obtain ⟨r, hr⟩ := mapM_some_of (f := place starts i) (l := ops)
    fun op hop => place_some hi (hc op hop)
  exact ⟨_, by rw [placeRegion, hr]; rfl⟩

theorem mem_constantsOf {ops : List (ROp V)} {v : V} {cell : Cell} :
    (v, cell) ∈ constantsOf ops ↔ ROp.constant cell v ∈ ops := by
  simp only [constantsOf, List.mem_filterMap]
  constructor
  · rintro ⟨op, hop, h⟩
    cases op <;> simp at h
    obtain ⟨rfl, rfl⟩ := h
    exact hop
  · intro h
    exact ⟨_, h, rfl⟩

/-- Specification: what the calls of region `i`, starting at row `r`, must be. -/
def RegionCalls (starts : List ℕ) (calls : List (Owner × COp V)) (i : ℕ) (ops : List (ROp V))
    (r : ℕ) : Prop :=
  (∀ c x v, (Owner.region i, COp.advice c x v) ∈ calls ↔
    ∃ o, ROp.advice c o v ∈ ops ∧ x = r + o) ∧
  (∀ c x v, (Owner.region i, COp.fixed c x v) ∈ calls ↔
    ∃ o, ROp.fixed c o v ∈ ops ∧ x = r + o) ∧
  (∀ s x, (Owner.region i, COp.enable s x) ∈ calls ↔
    ∃ o, ROp.enable s o ∈ ops ∧ x = r + o) ∧
  (∀ a b, ROp.equal a b ∈ ops → ∃ ra rb, starts[a.region]? = some ra ∧
    starts[b.region]? = some rb ∧
    (Owner.region i, COp.copy a.col (ra + a.offset) b.col (rb + b.offset)) ∈ calls) ∧
  (∀ cell column row, ROp.inst cell column row ∈ ops → ∃ ra, starts[cell.region]? = some ra ∧
    (Owner.region i, COp.copy cell.col (ra + cell.offset) (.inst column) row) ∈ calls)

theorem regionCalls_of {starts : List ℕ} {calls : List (Owner × COp V)} {i : ℕ}
    {ops : List (ROp V)} {r : ℕ} (hr : starts[i]? = some r)
    (hpl : ∀ op ∈ ops, ∃ cs, place starts i op = some cs)
    (hmem : ∀ a : COp V, (Owner.region i, a) ∈ calls ↔
      ∃ op ∈ ops, ∃ cs, place starts i op = some cs ∧ a ∈ cs) :
    RegionCalls starts calls i ops r := by
  refine ⟨fun c x v => ?_, fun c x v => ?_, fun s x => ?_, fun a b hab => ?_,
    fun cell column row hop => ?_⟩
  · rw [hmem]
    constructor
    · rintro ⟨op, hop, cs, hcs, ha⟩
      cases op with
      | advice c' o v' =>
        simp only [place, hr, Option.bind_eq_bind, Option.bind_some, Option.some.injEq] at hcs
        subst hcs
        simp only [List.mem_singleton, COp.advice.injEq] at ha
        obtain ⟨rfl, rfl, rfl⟩ := ha
        exact ⟨o, hop, rfl⟩
      | _ =>
        exfalso
        simp only [place, Option.bind_eq_bind, Option.bind_eq_some_iff, Option.some.injEq] at hcs
        first
        | (subst hcs; simp at ha)
        | (obtain ⟨_, _, rfl⟩ := hcs; simp at ha)
        | (obtain ⟨_, _, _, _, rfl⟩ := hcs; simp at ha)
    · rintro ⟨o, hop, rfl⟩
      exact ⟨_, hop, [.advice c (r + o) v], by simp only [place, hr]; rfl, by simp⟩
  · rw [hmem]
    constructor
    · rintro ⟨op, hop, cs, hcs, ha⟩
      cases op with
      | fixed c' o v' =>
        simp only [place, hr, Option.bind_eq_bind, Option.bind_some, Option.some.injEq] at hcs
        subst hcs
        simp only [List.mem_singleton, COp.fixed.injEq] at ha
        obtain ⟨rfl, rfl, rfl⟩ := ha
        exact ⟨o, hop, rfl⟩
      | _ =>
        exfalso
        simp only [place, Option.bind_eq_bind, Option.bind_eq_some_iff, Option.some.injEq] at hcs
        first
        | (subst hcs; simp at ha)
        | (obtain ⟨_, _, rfl⟩ := hcs; simp at ha)
        | (obtain ⟨_, _, _, _, rfl⟩ := hcs; simp at ha)
    · rintro ⟨o, hop, rfl⟩
      exact ⟨_, hop, [.fixed c (r + o) v], by simp only [place, hr]; rfl, by simp⟩
  · rw [hmem]
    constructor
    · rintro ⟨op, hop, cs, hcs, ha⟩
      cases op with
      | enable s' o =>
        simp only [place, hr, Option.bind_eq_bind, Option.bind_some, Option.some.injEq] at hcs
        subst hcs
        simp only [List.mem_singleton, COp.enable.injEq] at ha
        obtain ⟨rfl, rfl⟩ := ha
        exact ⟨o, hop, rfl⟩
      | _ =>
        exfalso
        simp only [place, Option.bind_eq_bind, Option.bind_eq_some_iff, Option.some.injEq] at hcs
        first
        | (subst hcs; simp at ha)
        | (obtain ⟨_, _, rfl⟩ := hcs; simp at ha)
        | (obtain ⟨_, _, _, _, rfl⟩ := hcs; simp at ha)
    · rintro ⟨o, hop, rfl⟩
      exact ⟨_, hop, [.enable s (r + o)], by simp only [place, hr]; rfl, by simp⟩
  · obtain ⟨cs, hcs⟩ := hpl _ hab
    have hcs' := hcs
    simp only [place, rowOf, Option.bind_eq_bind, Option.bind_eq_some_iff, Option.some.injEq,
      Option.map_eq_some_iff] at hcs'
    obtain ⟨_, ⟨ra, hra, rfl⟩, _, ⟨rb, hrb, rfl⟩, rfl⟩ := hcs'
    exact ⟨ra, rb, hra, hrb, (hmem _).2 ⟨_, hab, _, hcs, by simp⟩⟩
  · obtain ⟨cs, hcs⟩ := hpl _ hop
    have hcs' := hcs
    simp only [place, rowOf, Option.bind_eq_bind, Option.bind_eq_some_iff, Option.some.injEq,
      Option.map_eq_some_iff] at hcs'
    obtain ⟨_, ⟨ra, hra, rfl⟩, rfl⟩ := hcs'
    exact ⟨ra, hra, (hmem _).2 ⟨_, hop, _, hcs, by simp⟩⟩

/-! ## The free cells of the constants columns -/

/-- One entry per key. -/
def KeysOk (m : CircuitAllocations) : Prop := (m.map Prod.fst).Nodup

theorem KeysOk.set {m : CircuitAllocations} (h : KeysOk m) (c : RegionColumn) (a : Allocations) :
    KeysOk (m.set c a) := by
  unfold KeysOk CircuitAllocations.set
  rw [List.map_cons, List.nodup_cons]
  constructor
  · simp only [List.mem_map, List.mem_filter, not_exists, not_and]
    rintro e ⟨-, he⟩ heq
    simp [heq] at he
  · exact h.sublist (List.Sublist.map _ List.filter_sublist)

theorem KeysOk.get {m : CircuitAllocations} (h : KeysOk m) {e : RegionColumn × Allocations}
    (he : e ∈ m) : m.get e.1 = e.2 := by
  unfold CircuitAllocations.get
  induction m with
  | nil => simp at he
  | cons f m ih =>
    obtain ⟨k, v⟩ := f
    have hn := List.nodup_cons.1 (by simpa [KeysOk] using h : (k :: m.map Prod.fst).Nodup)
    rw [List.lookup_cons]
    rcases List.mem_cons.1 he with rfl | he'
    · simp
    · have hne : e.1 ≠ k := by
        rintro rfl
        exact hn.1 (List.mem_map_of_mem he')
      simp only [beq_eq_false_iff_ne.2 hne]
      exact ih hn.2 he'

theorem firstFit_keys (length : ℕ) (cols : List RegionColumn) :
    ∀ (m : CircuitAllocations) (start : ℕ) (slack : Option ℕ) (r : Option ℕ)
      (m' : CircuitAllocations), firstFit m length cols start slack = some (r, m') → KeysOk m →
      KeysOk m' := by
  induction cols with
  | nil =>
    intro m start slack r m' h hk
    rw [firstFit] at h
    cases h
    exact hk
  | cons c cols ih =>
    intro m start slack r m' h hk
    rw [firstFit] at h
    generalize freeIntervals _ _ _ = spaces at h
    generalize Option.map _ slack = stop at h
    induction spaces generalizing m with
    | nil => rw [firstFitLoop] at h; cases h; exact hk
    | cons sp spaces ihs =>
      rw [firstFitLoop] at h
      split_ifs at h with h1 h2
      · rcases hf : firstFit m length cols sp.start
          ((sp.stop.map fun (e : ℕ) => (e : ℤ) - sp.start - length).map Int.toNat) with
          _ | ⟨_ | row, m₁⟩
        · rw [hf] at h; cases h
        · rw [hf] at h
          exact ihs m₁ (ih _ _ _ _ _ hf hk) h
        · rw [hf] at h
          dsimp only at h
          split_ifs at h
          cases h
          exact (ih _ _ _ _ _ hf hk).set _ _
      · exact ihs m hk h

theorem slotIn_keys {l : List Shape} {p : List (ℕ × Shape) × CircuitAllocations}
    (h : slotIn l = some p) : KeysOk p.2 := by
  suffices hs : ∀ (l : List Shape) (acc : List (ℕ × Shape) × CircuitAllocations), KeysOk acc.2 →
      ∀ p, l.foldlM (fun (acc : List (ℕ × Shape) × CircuitAllocations) s => do
          let (row, m) ← firstFit acc.2 s.rows s.columns 0 none
          let row ← row
          some (acc.1 ++ [(row, s)], m)) acc = some p → KeysOk p.2 from
    hs l ([], []) (by simp [KeysOk]) p h
  intro l
  induction l with
  | nil => intro acc hk p h; cases h; exact hk
  | cons s l ih =>
    intro acc hk p h
    rw [List.foldlM_cons] at h
    simp only [Option.bind_eq_bind, Option.bind_eq_some_iff, Option.some.injEq] at h
    obtain ⟨acc', ⟨⟨r, m⟩, hf, row, -, rfl⟩, h2⟩ := h
    exact ih _ (firstFit_keys _ _ _ _ _ _ _ hf hk) p h2

theorem Plan.keys {regions : List (List (ROp V))} {starts : List ℕ} {m : CircuitAllocations}
    (h : Plan regions starts m) : KeysOk m := by
  have := h.eq
  unfold slotInBiggestAdviceFirst at this
  simp only [Option.bind_eq_bind, Option.bind_eq_some_iff, Option.some.injEq] at this
  obtain ⟨⟨l, m'⟩, h1, h2⟩ := this
  cases h2
  exact slotIn_keys h1

/-- The end of the last allocation. -/
theorem unboundedStart_ok {l : Allocations} (h : WF l) :
    (∀ x, Occupied l x → x < unboundedStart l) ∧
      (unboundedStart l = 0 ∨ Occupied l (unboundedStart l - 1)) := by
  unfold unboundedStart
  rcases List.eq_nil_or_concat l with rfl | ⟨l, a, rfl⟩
  · simp [Occupied]
  · rw [List.concat_eq_append] at *
    simp only [List.getLast?_append, List.getLast?_singleton, Option.some_or]
    have hp := List.pairwise_append.1 h.sorted
    have ha := h.pos a (by simp)
    constructor
    · rintro x ⟨b, hb, h1, h2⟩
      rcases List.mem_append.1 hb with hb | hb
      · have := hp.2.2 b hb a (by simp); omega
      · rw [List.mem_singleton.1 hb] at h2; exact h2
    · right
      exact ⟨a, by simp, by omega, by omega⟩

theorem foldl_max_spec (l : List ℕ) (a : ℕ) : a ≤ l.foldl max a ∧ (∀ x ∈ l, x ≤ l.foldl max a) ∧
    (l.foldl max a = a ∨ l.foldl max a ∈ l) := by
  induction l generalizing a with
  | nil => simp
  | cons b l ih =>
    obtain ⟨h1, h2, h3⟩ := ih (max a b)
    rw [List.foldl_cons]
    refine ⟨by omega, ?_, ?_⟩
    · intro x hx
      rcases List.mem_cons.1 hx with rfl | hx
      · omega
      · exact h2 x hx
    · rcases h3 with h3 | h3
      · rcases le_total a b with hab | hab
        · right; rw [h3, max_eq_right hab]; simp
        · left; rw [h3, max_eq_left hab]
      · right; exact List.mem_cons_of_mem _ h3

/-- Specification: the number of rows used by the regions. -/
def IsHeight (l : List (ℕ × Shape)) (n : ℕ) : Prop :=
  (∀ p ∈ l, ∀ c x, Uses p c x → x < n) ∧ (n = 0 ∨ ∃ p ∈ l, ∃ c, Uses p c (n - 1))

theorem isHeight_unique {l : List (ℕ × Shape)} {n n' : ℕ} (h : IsHeight l n) (h' : IsHeight l n') :
    n = n' := by
  have key : ∀ {n n'}, IsHeight l n → IsHeight l n' → n ≤ n' := by
    rintro n n' ⟨-, h | ⟨p, hp, c, hu⟩⟩ ⟨h', -⟩
    · omega
    · have := h' p hp c _ hu; omega
  exact le_antisymm (key h h') (key h' h)

theorem isHeight_first {l : List (ℕ × Shape)} {m : CircuitAllocations} (h : Placed l m)
    (hk : KeysOk m) : IsHeight l ((m.map fun e => unboundedStart e.2).foldl max 0) := by
  obtain ⟨-, h2, h3⟩ := foldl_max_spec (m.map fun e => unboundedStart e.2) 0
  constructor
  · intro p hp c x hu
    have ho := (h.iff c x).2 ⟨p, hp, hu⟩
    have hmem : (c, m.get c) ∈ m := by
      have hne : m.lookup c ≠ none := by
        intro hn
        rw [CircuitAllocations.get, hn] at ho
        simp [Occupied] at ho
      obtain ⟨a, ha⟩ := Option.ne_none_iff_exists'.1 hne
      have : (c, a) ∈ m := by
        clear ho h2 h3 hk h hne
        induction m with
        | nil => simp at ha
        | cons e m ih =>
          obtain ⟨k, v⟩ := e
          rw [List.lookup_cons] at ha
          by_cases hck : c = k
          · subst hck
            simp at ha
            simp [ha]
          · simp only [beq_eq_false_iff_ne.2 hck] at ha
            exact List.mem_cons_of_mem _ (ih ha)
      rw [CircuitAllocations.get, ha]
      exact this
    have h4 := h2 _ (List.mem_map.2 ⟨_, hmem, rfl⟩)
    have h5 := (unboundedStart_ok (h.wf c)).1 x ho
    dsimp only at h4
    omega
  · rcases h3 with h3 | h3
    · exact Or.inl h3
    · obtain ⟨e, he, heq⟩ := List.mem_map.1 h3
      rw [← heq]
      rcases (unboundedStart_ok (h.wf e.1)).2 with h6 | h6
      · rw [hk.get he] at h6; exact Or.inl h6
      · right
        obtain ⟨p, hp, hu⟩ := (h.iff _ _).1 h6
        rw [hk.get he] at hu
        exact ⟨p, hp, e.1, hu⟩

/-- **C18**: the positions of the constants are exactly the cells of the constants columns in the
used rows that no region uses. -/
theorem mem_constantPositions {l : List (ℕ × Shape)} {m : CircuitAllocations} (h : Placed l m)
    (hk : KeysOk m) {n : ℕ} (hn : IsHeight l n) (constants : List ℕ) (p : ℕ × ℕ) :
    p ∈ constantPositions m constants ↔
      p.1 ∈ constants ∧ p.2 < n ∧ ∀ q ∈ l, ¬ Uses q (.fixed p.1) p.2 := by
  have hfirst := isHeight_unique (isHeight_first h hk) hn
  unfold constantPositions
  dsimp only
  rw [hfirst]
  have hin : ∀ c i, (∃ s ∈ freeIntervals (some n) 0 (m.get (.fixed c)),
      s.start ≤ i ∧ i < s.start + (s.stop.getD 0 - s.start)) ↔
      i < n ∧ ∀ q ∈ l, ¬ Uses q (.fixed c) i := by
    intro c i
    have h1 := freeIntervals_iff (h.wf (.fixed c)) (some n) 0 i
    rw [below_some] at h1
    have h2 : (∀ q ∈ l, ¬ Uses q (.fixed c) i) ↔ ¬ Occupied (m.get (.fixed c)) i := by
      rw [h.iff]; simp
    rw [h2]
    rw [show (i < n ∧ ¬ Occupied (m.get (.fixed c)) i) ↔
      (0 ≤ i ∧ i < n ∧ ¬ Occupied (m.get (.fixed c)) i) by simp, ← h1]
    refine exists_congr fun s => and_congr_right fun hs => ?_
    obtain ⟨e, he, -⟩ := freeIntervals_stop hs n rfl
    have hne := freeIntervals_nonempty hs
    rw [he, below_some] at hne
    unfold Space.Has
    rw [he, below_some]
    simp only [Option.getD_some]
    omega
  obtain ⟨c, i⟩ := p
  simp only [List.mem_flatMap, List.mem_map, List.mem_range'_1, Prod.mk.injEq]
  constructor
  · rintro ⟨c', hc', s, hs, i', hi', rfl, rfl⟩
    exact ⟨hc', (hin c' i').1 ⟨s, hs, hi'⟩⟩
  · rintro ⟨hc, h1⟩
    obtain ⟨s, hs, hi⟩ := (hin c i).2 h1
    exact ⟨c, hc, s, hs, i, hi, rfl, rfl⟩

/-- No position is given twice. -/
theorem constantPositions_nodup {l : List (ℕ × Shape)} {m : CircuitAllocations} (h : Placed l m)
    {constants : List ℕ} (hc : constants.Nodup) : (constantPositions m constants).Nodup := by
  unfold constantPositions
  dsimp only
  generalize (m.map fun e => unboundedStart e.2).foldl max 0 = n
  rw [List.nodup_flatMap]
  constructor
  · intro c _
    rw [List.nodup_flatMap]
    constructor
    · intro s _
      exact (List.nodup_range' ..).map fun a b hab => by simpa using hab
    · refine (freeIntervals_sorted (h.wf (.fixed c)) (some n) 0).imp ?_
      rintro s t ⟨e, he, hlt⟩
      intro p hp hq
      simp only [List.mem_map, List.mem_range'_1, he, Option.getD_some] at hp hq
      obtain ⟨i, hi, rfl⟩ := hp
      obtain ⟨j, hj, heq⟩ := hq
      simp only [Prod.mk.injEq, true_and] at heq
      omega
  · refine hc.imp fun {a b} hab p hp hq => hab ?_
    simp only [List.mem_flatMap, List.mem_map] at hp hq
    obtain ⟨_, _, _, _, rfl⟩ := hp
    obtain ⟨_, _, _, _, heq⟩ := hq
    exact (congrArg Prod.fst heq).symm

/-! ## The V1 planner -/

theorem exceptMapM_mem {ε α β : Type} {f : α → Except ε β} {l : List α} {r : List β}
    (h : l.mapM f = .ok r) : ∀ b, b ∈ r ↔ ∃ a ∈ l, f a = .ok b := by
  induction l generalizing r with
  | nil => simp [pure, Except.pure] at h; subst h; simp
  | cons a l ih =>
    rw [List.mapM_cons] at h
    rcases hf : f a with e | b
    · rw [hf] at h; cases h
    · rcases hl : l.mapM f with e | r'
      · rw [hf, hl] at h; cases h
      · rw [hf, hl] at h
        cases h
        intro x
        simp only [List.mem_cons, ih hl, exists_eq_or_imp, hf, Except.ok.injEq, eq_comm (a := x)]

theorem exceptMapM_of {ε α β : Type} {f : α → Except ε β} {l : List α}
    (h : ∀ a ∈ l, ∃ b, f a = .ok b) : ∃ r, l.mapM f = .ok r := by
  induction l with
  | nil => exact ⟨[], rfl⟩
  | cons a l ih =>
    obtain ⟨b, hb⟩ := h a (List.mem_cons_self ..)
    obtain ⟨r, hr⟩ := ih fun x hx => h x (List.mem_cons_of_mem _ hx)
    exact ⟨b :: r, by rw [List.mapM_cons, hb, hr]; rfl⟩

/-- The parts of a successful run. -/
structure V1Parts (constants : List ℕ) (regions : List (List (ROp V))) (starts : List ℕ)
    (calls : List (Owner × COp V)) (m : CircuitAllocations)
    (rcalls ccalls : List (List (Owner × COp V))) : Prop where
  plan : Plan regions starts m
  regionsCalls : regions.zipIdx.mapM (fun r => placeRegion starts r.2 r.1) = some rcalls
  enough : (regions.flatMap constantsOf).length ≤ (constantPositions m constants).length
  constsCalls : ((constantPositions m constants).zip (regions.flatMap constantsOf)).zipIdx.mapM
    (fun x => placeConstant starts x.2 x.1.1.1 x.1.1.2 x.1.2.1 x.1.2.2) = .ok ccalls
  calls : calls = rcalls.flatten ++ ccalls.flatten

theorem v1_parts {constants : List ℕ} {regions : List (List (ROp V))} {starts : List ℕ}
    {calls : List (Owner × COp V)} (h : v1 constants regions = .ok (starts, calls)) :
    ∃ m rcalls ccalls, V1Parts constants regions starts calls m rcalls ccalls := by
  obtain ⟨st, m, hp⟩ := exists_plan regions
  unfold v1 at h
  dsimp only at h
  have he := hp.eq
  unfold shapes at he
  rw [he] at h
  dsimp only [orPanic, bind, Except.bind] at h
  rcases hr : regions.zipIdx.mapM (fun r => placeRegion st r.2 r.1) with _ | rc
  · rw [hr] at h; cases h
  · rw [hr] at h
    dsimp only at h
    split_ifs at h with hlen
    rcases hc : ((constantPositions m constants).zip (regions.flatMap constantsOf)).zipIdx.mapM
      (fun x => placeConstant st x.2 x.1.1.1 x.1.1.2 x.1.2.1 x.1.2.2) with e | cc
    · rw [hc] at h; cases h
    · rw [hc] at h
      cases h
      exact ⟨m, rc, cc, hp, hr, not_lt.1 hlen, hc, rfl⟩

theorem V1Parts.region_mem {constants : List ℕ} {regions : List (List (ROp V))} {starts : List ℕ}
    {calls : List (Owner × COp V)} {m : CircuitAllocations}
    {rcalls ccalls : List (List (Owner × COp V))}
    (h : V1Parts constants regions starts calls m rcalls ccalls) (p : Owner × COp V) :
    p ∈ rcalls.flatten ↔ ∃ i ops, regions[i]? = some ops ∧ p.1 = .region i ∧
      ∃ op ∈ ops, ∃ cs, place starts i op = some cs ∧ p.2 ∈ cs := by
  simp only [List.mem_flatten, mapM_some_mem h.regionsCalls]
  constructor
  · rintro ⟨l, ⟨⟨ops, i⟩, hmem, hpl⟩, hp⟩
    have := (List.mem_zipIdx_iff_getElem?.1 hmem)
    exact ⟨i, ops, this, (placeRegion_mem hpl p).1 hp⟩
  · rintro ⟨i, ops, hi, h1, op, hop, cs, hpl, hp⟩
    have hmem : (ops, i) ∈ regions.zipIdx := List.mem_zipIdx_iff_getElem?.2 hi
    have hall : ∃ l, placeRegion starts i ops = some l := by
      by_contra hcon
      have hn : placeRegion starts i ops = none := by
        rcases hh : placeRegion starts i ops with _ | l
        · rfl
        · exact absurd ⟨l, hh⟩ hcon
      have := h.regionsCalls
      obtain ⟨z₁, z₂, hz⟩ := List.append_of_mem hmem
      rw [hz, List.mapM_append] at this
      simp only [Option.bind_eq_bind, Option.bind_eq_some_iff, List.mapM_cons, hn] at this
      obtain ⟨_, _, _, ⟨_, hf, _⟩, _⟩ := this
      cases hf
    obtain ⟨l, hl⟩ := hall
    exact ⟨l, ⟨(ops, i), hmem, hl⟩, (placeRegion_mem hl p).2 ⟨h1, op, hop, cs, hpl, hp⟩⟩

theorem placeConstant_ok {starts : List ℕ} {k col row : ℕ} {v : V} {cell : Cell}
    {l : List (Owner × COp V)} (h : placeConstant starts k col row v cell = .ok l) :
    ∃ r, rowOf starts cell = some r ∧
      l = [(.constant k, .fixed col row v), (.constant k, .copy (.fixed col) row cell.col r)] := by
  unfold placeConstant at h
  rcases hr : rowOf starts cell with _ | r
  · rw [hr] at h; cases h
  · rw [hr] at h; cases h; exact ⟨r, rfl, rfl⟩

theorem V1Parts.const_mem {constants : List ℕ} {regions : List (List (ROp V))} {starts : List ℕ}
    {calls : List (Owner × COp V)} {m : CircuitAllocations}
    {rcalls ccalls : List (List (Owner × COp V))}
    (h : V1Parts constants regions starts calls m rcalls ccalls) (p : Owner × COp V) :
    p ∈ ccalls.flatten ↔ ∃ (k : ℕ) (q : ℕ × ℕ) (v : V) (cell : Cell) (r : ℕ),
      (constantPositions m constants)[k]? = some q ∧
      (regions.flatMap constantsOf)[k]? = some (v, cell) ∧ rowOf starts cell = some r ∧
      (p = (.constant k, .fixed q.1 q.2 v) ∨
        p = (.constant k, .copy (.fixed q.1) q.2 cell.col r)) := by
  simp only [List.mem_flatten, exceptMapM_mem h.constsCalls]
  constructor
  · rintro ⟨l, ⟨⟨⟨q, v, cell⟩, k⟩, hmem, hpl⟩, hp⟩
    obtain ⟨r, hr, rfl⟩ := placeConstant_ok hpl
    have hz := List.mem_zipIdx_iff_getElem?.1 hmem
    obtain ⟨h1, h2⟩ := List.getElem?_zip_eq_some.1 hz
    refine ⟨k, q, v, cell, r, h1, h2, hr, ?_⟩
    simpa using hp
  · rintro ⟨k, q, v, cell, r, h1, h2, hr, hp⟩
    refine ⟨[(.constant k, .fixed q.1 q.2 v), (.constant k, .copy (.fixed q.1) q.2 cell.col r)],
      ⟨((q, v, cell), k), List.mem_zipIdx_iff_getElem?.2
      (List.getElem?_zip_eq_some.2 ⟨h1, h2⟩), ?_⟩, ?_⟩
    · simp only [placeConstant, hr, orPanic]
      rfl
    · simpa using hp

/-- A region call assigns a cell the region uses. -/
theorem V1Parts.region_uses {constants : List ℕ} {regions : List (List (ROp V))} {starts : List ℕ}
    {calls : List (Owner × COp V)} {m : CircuitAllocations}
    {rcalls ccalls : List (List (Owner × COp V))}
    (h : V1Parts constants regions starts calls m rcalls ccalls) {p : Owner × COp V}
    (hp : p ∈ rcalls.flatten) {t : RegionColumn × ℕ} (ht : p.2.target = some t) :
    ∃ i r ops, p.1 = .region i ∧ starts[i]? = some r ∧ regions[i]? = some ops ∧
      Uses (r, shape i ops) t.1 t.2 := by
  obtain ⟨i, ops, hi, h1, op, hop, cs, hpl, hmem⟩ := (h.region_mem p).1 hp
  obtain ⟨r, o, hr, ho, hto⟩ := place_mem hpl hmem ht
  obtain ⟨hc, hrow⟩ := shape_covers (i := i) hop ho
  refine ⟨i, r, ops, h1, hr, hi, hc, ?_, ?_⟩ <;> dsimp only <;> omega

/-- **C18**: no cell of the circuit is assigned by two regions, by a region and a constant, or by
two constants. -/
theorem v1_no_overlap {constants : List ℕ} (hc : constants.Nodup) {regions : List (List (ROp V))}
    {starts : List ℕ} {calls : List (Owner × COp V)}
    (h : v1 constants regions = .ok (starts, calls)) {p q : Owner × COp V} (hp : p ∈ calls)
    (hq : q ∈ calls) {t : RegionColumn × ℕ} (hpt : p.2.target = some t)
    (hqt : q.2.target = some t) : p.1 = q.1 := by
  obtain ⟨m, rc, cc, hparts⟩ := v1_parts h
  have hheight := isHeight_first hparts.plan.placed hparts.plan.keys
  have hnd := constantPositions_nodup hparts.plan.placed hc
  -- a constant and its position
  have hconst : ∀ p ∈ cc.flatten, p.2.target = some t → ∃ (k : ℕ) (q : ℕ × ℕ), p.1 = .constant k ∧
      (constantPositions m constants)[k]? = some q ∧ t = (.fixed q.1, q.2) := by
    intro p hp hpt
    obtain ⟨k, q, v, cell, r, h1, -, -, rfl | rfl⟩ := (hparts.const_mem p).1 hp
    · cases hpt; exact ⟨k, q, rfl, h1, rfl⟩
    · cases hpt
  -- a region and a constant cannot meet
  have hmix : ∀ p ∈ rc.flatten, p.2.target = some t → ∀ q ∈ cc.flatten, q.2.target = some t →
      False := by
    intro p hp hpt q hq hqt
    obtain ⟨i, r, ops, -, h1, h2, h3⟩ := hparts.region_uses hp hpt
    obtain ⟨k, z, -, hz, rfl⟩ := hconst q hq hqt
    have hzm := (mem_constantPositions hparts.plan.placed hparts.plan.keys hheight constants z).1
      (List.mem_of_getElem? hz)
    exact hzm.2.2 _ (List.mem_of_getElem? (hparts.plan.mem h1 h2)) h3
  rw [hparts.calls, List.mem_append] at hp hq
  rcases hp with hp | hp <;> rcases hq with hq | hq
  · obtain ⟨i, r, ops, e1, e2, e3, e4⟩ := hparts.region_uses hp hpt
    obtain ⟨j, r', ops', f1, f2, f3, f4⟩ := hparts.region_uses hq hqt
    rw [e1, f1, hparts.plan.disjoint e2 e3 f2 f3 e4 f4]
  · exact (hmix p hp hpt q hq hqt).elim
  · exact (hmix q hq hqt p hp hpt).elim
  · obtain ⟨k, z, e1, e2, rfl⟩ := hconst p hp hpt
    obtain ⟨k', z', f1, f2, f3⟩ := hconst q hq hqt
    have hzz : z = z' := by
      simp only [Prod.mk.injEq, RegionColumn.fixed.injEq] at f3
      exact Prod.ext f3.1 f3.2
    subst hzz
    obtain ⟨l1, g1⟩ := List.getElem?_eq_some_iff.1 e2
    obtain ⟨l2, g2⟩ := List.getElem?_eq_some_iff.1 f2
    rw [e1, f1, (hnd.getElem_inj_iff).1 (g1.trans g2.symm)]

/-- **C18**: the start rows are in the order of the regions, and region `i` assigns exactly the
cells its closure names, counted from its start row. -/
theorem v1_regions {constants : List ℕ} {regions : List (List (ROp V))}
    {starts : List ℕ} {calls : List (Owner × COp V)}
    (h : v1 constants regions = .ok (starts, calls)) :
    starts.length = regions.length ∧ ∀ i ops r, regions[i]? = some ops → starts[i]? = some r →
      RegionCalls starts calls i ops r := by
  obtain ⟨m, rc, cc, hparts⟩ := v1_parts h
  refine ⟨hparts.plan.length, fun i ops r hi hr => ?_⟩
  have hnc : ∀ a : COp V, (Owner.region i, a) ∉ cc.flatten := by
    intro a hmem
    obtain ⟨k, q, v, cell, r, -, -, -, h1 | h1⟩ := (hparts.const_mem _).1 hmem <;>
      simp at h1
  have hmem : ∀ a : COp V, (Owner.region i, a) ∈ calls ↔
      ∃ op ∈ ops, ∃ cs, place starts i op = some cs ∧ a ∈ cs := by
    intro a
    rw [hparts.calls, List.mem_append, hparts.region_mem]
    simp only [hnc a, or_false, Owner.region.injEq]
    constructor
    · rintro ⟨j, ops', hj, rfl, h1⟩
      rw [hi] at hj
      cases hj
      exact h1
    · intro h1
      exact ⟨i, ops, hi, rfl, h1⟩
  -- no call of a closure is skipped
  have hpl : ∀ op ∈ ops, ∃ cs, place starts i op = some cs := by
    intro op hop
    have hm : (ops, i) ∈ regions.zipIdx := List.mem_zipIdx_iff_getElem?.2 hi
    by_contra hcon
    have hn : place starts i op = none := by
      rcases hh : place starts i op with _ | l
      · rfl
      · exact absurd ⟨l, hh⟩ hcon
    have h1 := hparts.regionsCalls
    obtain ⟨z₁, z₂, hz⟩ := List.append_of_mem hm
    obtain ⟨y₁, y₂, hy⟩ := List.append_of_mem hop
    have h2 : placeRegion starts i ops = none := by
      rw [placeRegion, hy, List.mapM_append]
      simp only [List.mapM_cons, hn, Option.bind_eq_bind, Option.bind_none, Option.map_eq_none_iff]
      rcases y₁.mapM (place starts i) with _ | _ <;> rfl
    rw [hz, List.mapM_append] at h1
    simp only [Option.bind_eq_bind, Option.bind_eq_some_iff, List.mapM_cons, h2] at h1
    obtain ⟨_, _, _, ⟨_, hf, _⟩, _⟩ := h1
    cases hf
  exact regionCalls_of hr hpl hmem

/-- **C18**: every constant requested is assigned to a cell of a constants column and constrained
equal to the cell that requested it. -/
theorem v1_constants {constants : List ℕ} {regions : List (List (ROp V))}
    {starts : List ℕ} {calls : List (Owner × COp V)}
    (h : v1 constants regions = .ok (starts, calls)) {k : ℕ} {v : V} {cell : Cell}
    (hk : (regions.flatMap constantsOf)[k]? = some (v, cell)) :
    ∃ col row r, col ∈ constants ∧ starts[cell.region]? = some r ∧
      (Owner.constant k, COp.fixed col row v) ∈ calls ∧
      (Owner.constant k, COp.copy (.fixed col) row cell.col (r + cell.offset)) ∈ calls := by
  obtain ⟨m, rc, cc, hparts⟩ := v1_parts h
  have hlt : k < (constantPositions m constants).length :=
    lt_of_lt_of_le (List.getElem?_eq_some_iff.1 hk).1 hparts.enough
  obtain ⟨q, hq⟩ : ∃ q, (constantPositions m constants)[k]? = some q :=
    ⟨_, List.getElem?_eq_getElem hlt⟩
  -- the calls of constant `k`
  have hz : ((q, (v, cell)), k) ∈
      ((constantPositions m constants).zip (regions.flatMap constantsOf)).zipIdx :=
    List.mem_zipIdx_iff_getElem?.2 (List.getElem?_zip_eq_some.2 ⟨hq, hk⟩)
  obtain ⟨l, hl⟩ : ∃ l, placeConstant starts k q.1 q.2 v cell = .ok l := by
    rcases hh : placeConstant starts k q.1 q.2 v cell with e | l
    · exfalso
      have h1 := hparts.constsCalls
      obtain ⟨z₁, z₂, hzz⟩ := List.append_of_mem hz
      rw [hzz, List.mapM_append, List.mapM_cons] at h1
      simp only [hh] at h1
      rcases hz1 : z₁.mapM (fun x : ((ℕ × ℕ) × (V × Cell)) × ℕ =>
        placeConstant starts x.2 x.1.1.1 x.1.1.2 x.1.2.1 x.1.2.2) with e' | y
      · rw [hz1] at h1; cases h1
      · rw [hz1] at h1; cases h1
    · exact ⟨l, rfl⟩
  obtain ⟨r, hr, -⟩ := placeConstant_ok hl
  have hr' := hr
  simp only [rowOf, Option.map_eq_some_iff] at hr'
  obtain ⟨r₀, hr₀, rfl⟩ := hr'
  have hheight := isHeight_first hparts.plan.placed hparts.plan.keys
  have hcol := ((mem_constantPositions hparts.plan.placed hparts.plan.keys hheight constants q).1
    (List.mem_of_getElem? hq)).1
  refine ⟨q.1, q.2, r₀, hcol, hr₀, ?_, ?_⟩
  · rw [hparts.calls]
    exact List.mem_append_right _ ((hparts.const_mem _).2 ⟨k, q, v, cell, _, hq, hk, hr, Or.inl rfl⟩)
  · rw [hparts.calls]
    exact List.mem_append_right _ ((hparts.const_mem _).2 ⟨k, q, v, cell, _, hq, hk, hr, Or.inr rfl⟩)

/-- **C18**: the planner does not panic, and fails exactly when the constants are more than the
free cells of the constants columns in the rows used by the regions. -/
theorem v1_result {constants : List ℕ} (hc : constants.Nodup) {regions : List (List (ROp V))}
    (hcausal : Causal regions) :
    ∃ (starts : List ℕ) (n : ℕ) (free : Finset (ℕ × ℕ)), starts.length = regions.length ∧
      IsHeight (starts.zip (shapes regions)) n ∧
      (∀ p, p ∈ free ↔ p.1 ∈ constants ∧ p.2 < n ∧
        ∀ q ∈ starts.zip (shapes regions), ¬ Uses q (.fixed p.1) p.2) ∧
      if free.card < (regions.flatMap constantsOf).length then
        v1 constants regions = .error .notEnoughColumnsForConstants
      else ∃ calls, v1 constants regions = .ok (starts, calls) := by
  obtain ⟨starts, m, hp⟩ := exists_plan regions
  have hheight := isHeight_first hp.placed hp.keys
  have hnd := constantPositions_nodup hp.placed hc
  refine ⟨starts, _, (constantPositions m constants).toFinset, hp.length, hheight, fun p => ?_, ?_⟩
  · rw [List.mem_toFinset]
    exact mem_constantPositions hp.placed hp.keys hheight constants p
  · rw [List.toFinset_card_of_nodup hnd]
    obtain ⟨rc, hrc⟩ := mapM_some_of (f := fun r : List (ROp V) × ℕ => placeRegion starts r.2 r.1)
      (l := regions.zipIdx) (by
        rintro ⟨ops, i⟩ hmem
        have hi := List.mem_zipIdx_iff_getElem?.1 hmem
        have hlt := (List.getElem?_eq_some_iff.1 hi).1
        refine placeRegion_some (by rw [hp.length]; exact hlt) fun op hop cell hcell => ?_
        rw [hp.length]
        exact lt_of_le_of_lt (hcausal i ops hi op hop cell hcell) hlt)
    have he := hp.eq
    unfold shapes at he
    unfold v1
    dsimp only
    rw [he]
    dsimp only [orPanic, bind, Except.bind]
    rw [hrc]
    dsimp only
    split_ifs with hlen
    · rfl
    · obtain ⟨cc, hcc⟩ := exceptMapM_of
        (f := fun x : ((ℕ × ℕ) × (V × Cell)) × ℕ =>
          placeConstant starts x.2 x.1.1.1 x.1.1.2 x.1.2.1 x.1.2.2)
        (l := ((constantPositions m constants).zip (regions.flatMap constantsOf)).zipIdx) (by
          rintro ⟨⟨q, v, cell⟩, k⟩ hmem
          have hz := List.mem_zipIdx_iff_getElem?.1 hmem
          obtain ⟨-, h2⟩ := List.getElem?_zip_eq_some.1 hz
          obtain ⟨ops, hops, hin⟩ := List.mem_flatMap.1 (List.mem_of_getElem? h2)
          obtain ⟨i, hi, hget⟩ := List.getElem_of_mem hops
          have hle := hcausal i ops (List.getElem?_eq_some_iff.2 ⟨hi, hget⟩) _
            (mem_constantsOf.1 hin) cell (by simp [ROp.cells])
          have hlt : cell.region < starts.length := by rw [hp.length]; omega
          exact ⟨_, by
            simp only [placeConstant, rowOf, List.getElem?_eq_getElem hlt, Option.map_some, orPanic]
            rfl⟩)
      rw [hcc]
      exact ⟨_, rfl⟩

end Verif.Floor
