import Verif.Layout.Model

/-!
# What both planners do
-/

namespace Verif.Layout

open Verif.Floor

variable {V : Type}

/-- What is common to the planners. -/
structure Laid (regions : List (List (ROp V))) (starts : List ℕ) (calls : List (Owner × COp V)) :
    Prop where
  len : starts.length = regions.length
  region : ∀ i ops r, regions[i]? = some ops → starts[i]? = some r →
    RegionCalls starts calls i ops r
  consts : ∀ k v cell, (regions.flatMap constantsOf)[k]? = some (v, cell) →
    ∃ col row r, starts[cell.region]? = some r ∧ (Owner.constant k, COp.fixed col row v) ∈ calls ∧
      (Owner.constant k, COp.copy (.fixed col) row cell.col (r + cell.offset)) ∈ calls
  owner : ∀ p ∈ calls, ∀ q ∈ calls, ∀ t, p.2.target = some t → q.2.target = some t → p.1 = q.1
  disjoint : ∀ i j oi oj ri rj, regions[i]? = some oi → regions[j]? = some oj →
    starts[i]? = some ri → starts[j]? = some rj → ∀ c x, Uses (ri, shape i oi) c x →
    Uses (rj, shape j oj) c x → i = j
  mem : ∀ p ∈ calls, (∃ i ops, regions[i]? = some ops ∧ p.1 = .region i ∧ ∃ op ∈ ops, ∃ cs,
      place starts i op = some cs ∧ p.2 ∈ cs) ∨
    (∃ (k c row : ℕ) (v : V) (cell : Cell) (r : ℕ),
      (regions.flatMap constantsOf)[k]? = some (v, cell) ∧ rowOf starts cell = some r ∧
      (Owner.constant k, COp.fixed c row v) ∈ calls ∧
      (p = (.constant k, .fixed c row v) ∨ p = (.constant k, .copy (.fixed c) row cell.col r)))

theorem v1_laid {constants : List ℕ} (hc : constants.Nodup) {regions : List (List (ROp V))}
    {starts : List ℕ} {calls : List (Owner × COp V)}
    (h : v1 constants regions = .ok (starts, calls)) : Laid regions starts calls := by
  obtain ⟨m, rc, cc, hp⟩ := v1_parts h
  refine ⟨(v1_regions h).1, (v1_regions h).2, ?_, fun p hp q hq t => v1_no_overlap hc h hp hq, ?_, ?_⟩
  · intro k v cell hk
    obtain ⟨col, row, r, -, h1, h2, h3⟩ := v1_constants h hk
    exact ⟨col, row, r, h1, h2, h3⟩
  · intro i j oi oj ri rj h1 h2 h3 h4 c x h5 h6
    exact hp.plan.disjoint h3 h1 h4 h2 h5 h6
  · intro p hm
    rw [hp.calls, List.mem_append] at hm
    rcases hm with hm | hm
    · exact .inl ((hp.region_mem p).1 hm)
    · obtain ⟨k, q, v, cell, r, h1, h2, h3, h4⟩ := (hp.const_mem p).1 hm
      refine .inr ⟨k, q.1, q.2, v, cell, r, h2, h3, ?_, h4⟩
      rw [hp.calls, List.mem_append]
      exact .inr ((hp.const_mem _).2 ⟨k, q, v, cell, r, h1, h2, h3, .inl rfl⟩)

theorem single_laid {constants : List ℕ} {regions : List (List (ROp V))}
    {s : Single} {calls : List (Owner × COp V)}
    (h : single constants regions = .ok (s, calls)) : Laid regions s.regions calls := by
  obtain ⟨rows, hi⟩ := single_inv h
  refine ⟨(single_regions h).1, (single_regions h).2, ?_,
    fun p hp q hq t => single_no_overlap h hp hq, ?_, ?_⟩
  · intro k v cell hk
    obtain ⟨col, row, r, -, h1, h2, h3⟩ := single_constants h hk
    exact ⟨col, row, r, h1, h2, h3⟩
  · intro i j oi oj ri rj h1 h2 h3 h4 c x h5 h6
    exact hi.disjoint i j oi oj ri rj h1 h2 h3 h4 c x h5 h6
  · intro p hm
    rcases (hi.mem p).1 hm with h1 | ⟨k, c, row, v, cell, r, h1, h2, h3, h4, h5⟩
    · exact .inl h1
    · exact .inr ⟨k, c, row, v, cell, r, h3, h4,
        (hi.mem _).2 (.inr ⟨k, c, row, v, cell, r, h1, h2, h3, h4, .inl rfl⟩), h5⟩

end Verif.Layout
