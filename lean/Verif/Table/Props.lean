import Mathlib.Tactic.Push
import Mathlib.Data.List.Perm.Basic
import Mathlib.Data.List.Nodup
import Verif.Table.Model

/-!
# Lookup tables are fully defined (C20)
-/

namespace Verif.Table

variable {V : Type}

/-- Specification: the columns a closure assigns to. -/
def Assigns (calls : List (Call V)) (c : ℕ) : Prop := ∃ k ∈ calls, k.col = c

/-- Specification: the cells a closure assigns to. -/
def AssignsCell (calls : List (Call V)) (c r : ℕ) : Prop := ∃ k ∈ calls, k.col = c ∧ k.off = r

/-- Specification: the calls of a closure are those of a table of `len` rows. -/
structure Good (a : Assembly V) (used : List ℕ) (calls : List (Call V)) (len : ℕ) : Prop where
  /-- the columns exist and were not used before -/
  fresh : ∀ k ∈ calls, k.col ∉ used ∧ k.col < a.columns
  /-- the values are known -/
  known : ∀ k ∈ calls, k.val.isSome
  /-- the rows of each column are those below the length, without gaps -/
  rows : ∀ c, Assigns calls c → ∀ r, AssignsCell calls c r ↔ r < len
  /-- no default value is assigned twice -/
  once : calls.Pairwise fun k k' => ¬ (k.col = k'.col ∧ k.off = 0 ∧ k'.off = 0)
  /-- there is room -/
  room : calls ≠ [] → 0 < len ∧ len < a.usable

/-- Specification: what the fixed columns must be. -/
structure Filled (a a' : Assembly V) (calls : List (Call V)) (len : ℕ) : Prop where
  usable : a'.usable = a.usable
  columns : a'.columns = a.columns
  /-- the last value assigned to a cell is its value -/
  last : ∀ pre k post, calls = pre ++ k :: post →
    (∀ k' ∈ post, ¬ (k'.col = k.col ∧ k'.off = k.off)) → some (a'.fixed k.col k.off) = k.val
  /-- the usable rows beyond the table hold the value of the first row -/
  rest : ∀ c, Assigns calls c → ∀ r, len ≤ r → r < a.usable → a'.fixed c r = a'.fixed c 0
  /-- the other rows are not touched -/
  unusable : ∀ c r, a.usable ≤ r → a'.fixed c r = a.fixed c r
  /-- the other columns are not touched -/
  other : ∀ c, ¬ Assigns calls c → a'.fixed c = a.fixed c

/-! ## The closure -/

/-- The state after the calls `done`. -/
structure Inv (a : Assembly V) (used : List ℕ) (done : List (Call V)) (l : Layouter V) : Prop where
  usable : l.cs.usable = a.usable
  columns : l.cs.columns = a.columns
  nodup : l.keys.Nodup
  keys : ∀ c, c ∈ l.keys ↔ Assigns done c
  fresh : ∀ k ∈ done, k.col ∉ used ∧ k.col < a.columns
  known : ∀ k ∈ done, k.val.isSome
  below : ∀ k ∈ done, k.off < a.usable
  once : done.Pairwise fun k k' => ¬ (k.col = k'.col ∧ k.off = 0 ∧ k'.off = 0)
  marks : ∀ c ∈ l.keys, ∀ r, (l.entry c).assigned[r]? = some true ↔ AssignsCell done c r
  len : ∀ c ∈ l.keys, ∀ n, (l.entry c).assigned.length = n + 1 → AssignsCell done c n
  nonempty : ∀ c ∈ l.keys, (l.entry c).assigned ≠ []
  default : ∀ c ∈ l.keys, ∀ d, (l.entry c).default = some d ↔
    ∃ k ∈ done, k.col = c ∧ k.off = 0 ∧ k.val = d
  defaultNone : ∀ c ∈ l.keys, (l.entry c).default = none ↔ ¬ AssignsCell done c 0
  last : ∀ pre k post, done = pre ++ k :: post →
    (∀ k' ∈ post, ¬ (k'.col = k.col ∧ k'.off = k.off)) → some (l.cs.fixed k.col k.off) = k.val
  other : ∀ c r, ¬ AssignsCell done c r → l.cs.fixed c r = a.fixed c r

theorem mark_get (l : List Bool) (off r : ℕ) :
    (mark l off)[r]? = some true ↔ r = off ∨ l[r]? = some true := by
  unfold mark
  rw [List.getElem?_set]
  by_cases hr : off = r
  · subst hr
    split_ifs with h1 h2 h2 <;> simp at * <;> omega
  · simp only [hr, if_false, Ne.symm hr, false_or]
    split_ifs with h1
    · by_cases h2 : r < l.length
      · rw [List.getElem?_append_left h2]
      · rw [List.getElem?_append_right (not_lt.1 h2), List.getElem?_eq_none (not_lt.1 h2),
          List.getElem?_replicate]
        split_ifs <;> simp
    · rfl

theorem mark_length (l : List Bool) (off : ℕ) : (mark l off).length = max l.length (off + 1) := by
  unfold mark
  rw [List.length_set]
  split_ifs with h
  · simp; omega
  · omega

theorem assigns_concat {done : List (Call V)} {k : Call V} {c : ℕ} :
    Assigns (done ++ [k]) c ↔ Assigns done c ∨ c = k.col := by
  simp [Assigns, or_and_right, exists_or, eq_comm]

theorem assignsCell_concat {done : List (Call V)} {k : Call V} {c r : ℕ} :
    AssignsCell (done ++ [k]) c r ↔ AssignsCell done c r ∨ (c = k.col ∧ r = k.off) := by
  simp [AssignsCell, or_and_right, exists_or, eq_comm]

theorem AssignsCell.assigns {calls : List (Call V)} {c r : ℕ} (h : AssignsCell calls c r) :
    Assigns calls c := by
  obtain ⟨k, hk, h1, -⟩ := h
  exact ⟨k, hk, h1⟩

open Classical in
/-- A call succeeds exactly when its column is fresh and exists, its row is usable, its value is
known and it does not assign the default again. -/
theorem Inv.step {a : Assembly V} {used : List ℕ} {done : List (Call V)} {l : Layouter V}
    (h : Inv a used done l) (k : Call V) :
    if k.col ∉ used ∧ k.col < a.columns ∧ k.off < a.usable ∧ k.val.isSome ∧
        ¬ (k.off = 0 ∧ AssignsCell done k.col 0) then
      ∃ l', l.assignCell used k = (l', none) ∧ Inv a used (done ++ [k]) l'
    else ∃ l' e, l.assignCell used k = (l', some e) := by
  unfold Layouter.assignCell
  by_cases hu : k.col ∈ used
  · simp [hu]
  simp only [hu, if_false, not_false_eq_true, true_and]
  set l₁ := (if k.col ∈ l.keys then l else
    { l with keys := l.keys ++ [k.col], entry := Function.update l.entry k.col ⟨none, []⟩ }) with hl₁
  have hcs : l₁.cs = l.cs := by rw [hl₁]; split_ifs <;> rfl
  have hkeys : ∀ c, c ∈ l₁.keys ↔ Assigns done c ∨ c = k.col := by
    intro c
    rw [hl₁, ← h.keys]
    split_ifs with hk
    · constructor
      · exact Or.inl
      · rintro (h1 | rfl)
        · exact h1
        · exact hk
    · simp
  have hnd : l₁.keys.Nodup := by
    rw [hl₁]
    split_ifs with hk
    · exact h.nodup
    · rw [List.nodup_append]
      refine ⟨h.nodup, by simp, ?_⟩
      intro x hx y hy hxy
      rw [List.mem_singleton.1 hy] at hxy
      exact hk (hxy ▸ hx)
  have hother : ∀ c, c ≠ k.col → l₁.entry c = l.entry c := by
    intro c hc
    rw [hl₁]
    split_ifs
    · rfl
    · exact Function.update_of_ne hc _ _
  -- the entry of the column
  have hentry : (∀ r, (l₁.entry k.col).assigned[r]? = some true ↔ AssignsCell done k.col r) ∧
      (∀ n, (l₁.entry k.col).assigned.length = n + 1 → AssignsCell done k.col n) ∧
      (∀ d, (l₁.entry k.col).default = some d ↔ ∃ k' ∈ done, k'.col = k.col ∧ k'.off = 0 ∧ k'.val = d) ∧
      ((l₁.entry k.col).default = none ↔ ¬ AssignsCell done k.col 0) := by
    rw [hl₁]
    split_ifs with hk
    · exact ⟨h.marks _ hk, h.len _ hk, h.default _ hk, h.defaultNone _ hk⟩
    · have hno : ¬ Assigns done k.col := fun hc => hk ((h.keys _).2 hc)
      simp only [Function.update_self]
      refine ⟨fun r => ?_, fun n hn => by simp at hn, fun d => ?_, ?_⟩
      · simp only [List.getElem?_nil, reduceCtorEq, false_iff]
        exact fun hc => hno hc.assigns
      · simp only [reduceCtorEq, false_iff]
        rintro ⟨k', h1, h2, -⟩
        exact hno ⟨k', h1, h2⟩
      · simp only [true_iff]
        exact fun hc => hno hc.assigns
  obtain ⟨hm, hn, hd, hd0⟩ := hentry
  unfold Assembly.assignFixed
  rw [hcs, h.usable, h.columns]
  by_cases hrow : k.off < a.usable
  swap
  · simp [hrow]
  by_cases hcol : k.col < a.columns
  swap
  · rcases hval : k.val with _ | v <;> simp [hrow, hcol]
  rcases hval : k.val with _ | v
  · simp [hrow, hcol]
  simp only [hrow, hcol, not_true_eq_false, if_false, Option.isSome_some, true_and]
  have hsome : (l₁.entry k.col).default.isSome ↔ AssignsCell done k.col 0 := by
    rw [Option.isSome_iff_ne_none, ne_eq, hd0, not_not]
  simp only [hsome]
  by_cases hover : AssignsCell done k.col 0 ∧ k.off = 0
  · rw [if_neg (by tauto), if_pos hover]
    exact ⟨_, _, rfl⟩
  · rw [if_pos (by tauto), if_neg hover]
    refine ⟨_, rfl, ?_⟩
    have hfix : ∀ c r, (Function.update l.cs.fixed k.col
        (Function.update (l.cs.fixed k.col) k.off v)) c r =
        if c = k.col ∧ r = k.off then v else l.cs.fixed c r := by
      intro c r
      by_cases hc : c = k.col
      · subst hc
        by_cases hr : r = k.off
        · subst hr; simp
        · simp [hr]
      · simp [hc]
    constructor
    · rfl
    · rfl
    · exact hnd
    · intro c; dsimp only; rw [hkeys, assigns_concat]
    · intro k' hk'
      rcases List.mem_append.1 hk' with hk' | hk'
      · exact h.fresh k' hk'
      · rw [List.mem_singleton.1 hk']; exact ⟨hu, hcol⟩
    · intro k' hk'
      rcases List.mem_append.1 hk' with hk' | hk'
      · exact h.known k' hk'
      · rw [List.mem_singleton.1 hk', hval]; rfl
    · intro k' hk'
      rcases List.mem_append.1 hk' with hk' | hk'
      · exact h.below k' hk'
      · rw [List.mem_singleton.1 hk']; exact hrow
    · refine List.pairwise_append.2 ⟨h.once, by simp, fun k' hk' k'' hk'' => ?_⟩
      rw [List.mem_singleton.1 hk'']
      rintro ⟨h1, h2, h3⟩
      exact hover ⟨⟨k', hk', h1, h2⟩, h3⟩
    · intro c hc r
      dsimp only at hc ⊢
      rw [assignsCell_concat]
      by_cases hck : c = k.col
      · subst hck
        simp only [Function.update_self, mark_get, hm]
        tauto
      · rw [Function.update_of_ne hck, hother c hck]
        have hin : c ∈ l.keys := (h.keys c).2 (((hkeys c).1 hc).resolve_right hck)
        rw [h.marks c hin]
        tauto
    · intro c hc n hlen
      dsimp only at hc hlen
      rw [assignsCell_concat]
      by_cases hck : c = k.col
      · subst hck
        simp only [Function.update_self, mark_length] at hlen
        by_cases hle : (l₁.entry k.col).assigned.length ≤ k.off + 1
        · right
          exact ⟨rfl, by omega⟩
        · left
          exact hn n (by omega)
      · rw [Function.update_of_ne hck, hother c hck] at hlen
        have hin : c ∈ l.keys := (h.keys c).2 (((hkeys c).1 hc).resolve_right hck)
        exact Or.inl (h.len c hin n hlen)
    · intro c hc
      dsimp only at hc ⊢
      by_cases hck : c = k.col
      · subst hck
        simp only [Function.update_self]
        intro hnil
        have := mark_length (l₁.entry k.col).assigned k.off
        rw [hnil] at this
        simp at this
        omega
      · rw [Function.update_of_ne hck, hother c hck]
        exact h.nonempty c ((h.keys c).2 (((hkeys c).1 hc).resolve_right hck))
    · intro c hc d
      dsimp only at hc ⊢
      by_cases hck : c = k.col
      · subst hck
        simp only [Function.update_self]
        by_cases h0 : k.off = 0
        · rw [if_pos h0]
          have hno : ¬ AssignsCell done k.col 0 := fun hc => hover ⟨hc, h0⟩
          constructor
          · intro hd'
            exact ⟨k, by simp, rfl, h0, by rw [hval]; exact Option.some.inj hd'⟩
          · rintro ⟨k', hk', h1, h2, h3⟩
            rcases List.mem_append.1 hk' with hk' | hk'
            · exact absurd ⟨k', hk', h1, h2⟩ hno
            · rw [List.mem_singleton.1 hk', hval] at h3
              rw [h3]
        · rw [if_neg h0, hd]
          constructor
          · rintro ⟨k', hk', h1⟩
            exact ⟨k', List.mem_append_left _ hk', h1⟩
          · rintro ⟨k', hk', h1, h2, h3⟩
            rcases List.mem_append.1 hk' with hk' | hk'
            · exact ⟨k', hk', h1, h2, h3⟩
            · rw [List.mem_singleton.1 hk'] at h2
              exact absurd h2 h0
      · rw [Function.update_of_ne hck, hother c hck,
          h.default c ((h.keys c).2 (((hkeys c).1 hc).resolve_right hck))]
        constructor
        · rintro ⟨k', hk', h1⟩
          exact ⟨k', List.mem_append_left _ hk', h1⟩
        · rintro ⟨k', hk', h1, h2, h3⟩
          rcases List.mem_append.1 hk' with hk' | hk'
          · exact ⟨k', hk', h1, h2, h3⟩
          · rw [List.mem_singleton.1 hk'] at h1
            exact absurd h1.symm hck
    · intro c hc
      dsimp only at hc ⊢
      rw [assignsCell_concat]
      by_cases hck : c = k.col
      · subst hck
        simp only [Function.update_self]
        by_cases h0 : k.off = 0
        · simp [h0]
        · rw [if_neg h0, hd0]
          simp [Ne.symm h0]
      · rw [Function.update_of_ne hck, hother c hck,
          h.defaultNone c ((h.keys c).2 (((hkeys c).1 hc).resolve_right hck))]
        simp [hck]
    · intro pre k' post heq hpost
      dsimp only
      rw [hfix]
      rcases List.eq_nil_or_concat post with rfl | ⟨post, k'', rfl⟩
      · obtain ⟨-, h2⟩ := List.append_inj' heq rfl
        simp only [List.cons.injEq, and_true] at h2
        subst h2
        simp [hval]
      · have heq' : done ++ [k] = (pre ++ k' :: post) ++ [k''] := by simpa using heq
        obtain ⟨h1, h2⟩ := List.append_inj' heq' rfl
        simp only [List.cons.injEq, and_true] at h2
        subst h2
        have hne := hpost k (by simp)
        rw [if_neg (fun hc => hne ⟨hc.1.symm, hc.2.symm⟩)]
        exact h.last pre k' post h1 fun x hx => hpost x (by simp [hx])
    · intro c r hno
      rw [assignsCell_concat] at hno
      push Not at hno
      dsimp only
      rw [hfix, if_neg (fun hc => hno.2 hc.1 hc.2)]
      exact h.other c r hno.1

/-- Specification: a closure all of whose calls are accepted. -/
structure Accepted (a : Assembly V) (used : List ℕ) (calls : List (Call V)) : Prop where
  fresh : ∀ k ∈ calls, k.col ∉ used ∧ k.col < a.columns
  known : ∀ k ∈ calls, k.val.isSome
  below : ∀ k ∈ calls, k.off < a.usable
  once : calls.Pairwise fun k k' => ¬ (k.col = k'.col ∧ k.off = 0 ∧ k'.off = 0)

theorem run_ok {a : Assembly V} {used : List ℕ} (calls done : List (Call V)) (l : Layouter V)
    (h : Inv a used done l) :
    (Accepted a used (done ++ calls) → ∃ l', l.run used calls = .ok l' ∧
      Inv a used (done ++ calls) l') ∧
    (∀ l', l.run used calls = .ok l' → Inv a used (done ++ calls) l') := by
  induction calls generalizing done l with
  | nil =>
    simp only [List.append_nil, Layouter.run, Except.ok.injEq]
    exact ⟨fun _ => ⟨l, rfl, h⟩, fun l' hl => hl ▸ h⟩
  | cons k calls ih =>
    have hs := h.step k
    rw [Layouter.run]
    constructor
    · intro hacc
      have hk : k ∈ done ++ k :: calls := by simp
      have hcond : k.col ∉ used ∧ k.col < a.columns ∧ k.off < a.usable ∧ k.val.isSome ∧
          ¬ (k.off = 0 ∧ AssignsCell done k.col 0) := by
        refine ⟨(hacc.fresh k hk).1, (hacc.fresh k hk).2, hacc.below k hk, hacc.known k hk, ?_⟩
        rintro ⟨h0, k', hk', h1, h2⟩
        exact (List.pairwise_append.1 hacc.once).2.2 k' hk' k (by simp) ⟨h1, h2, h0⟩
      rw [if_pos hcond] at hs
      obtain ⟨l', e1, e2⟩ := hs
      rw [e1]
      have := (ih (done ++ [k]) l' e2).1 (by simpa using hacc)
      simpa using this
    · intro l'' hr
      split_ifs at hs with hc
      · obtain ⟨l', e1, e2⟩ := hs
        rw [e1] at hr
        have := (ih (done ++ [k]) l' e2).2 l'' hr
        simpa using this
      · obtain ⟨l', e, e1⟩ := hs
        rw [e1] at hr
        cases hr

theorem Inv.init (a : Assembly V) (used : List ℕ) :
    Inv a used [] ⟨a, [], fun _ => ⟨none, []⟩⟩ := by
  constructor <;> simp [Assigns]

/-! ## The end of the table -/

theorem exceptMapM_ok {ε α β : Type} {f : α → Except ε β} {l : List α} {r : List β} :
    l.mapM f = .ok r ↔ List.Forall₂ (fun a b => f a = .ok b) l r := by
  induction l generalizing r with
  | nil =>
    simp only [List.mapM_nil, pure, Except.pure, Except.ok.injEq, List.forall₂_nil_left_iff]
    exact eq_comm
  | cons a l ih =>
    rw [List.mapM_cons]
    rcases hf : f a with e | b
    · simp [bind, Except.bind, List.forall₂_cons_left_iff, hf]
    · rcases hl : l.mapM f with e | r'
      · simp only [bind, Except.bind, reduceCtorEq, false_iff]
        intro hc
        rw [List.forall₂_cons_left_iff] at hc
        obtain ⟨b', u, -, h2, -⟩ := hc
        rw [ih.2 h2] at hl
        cases hl
      · simp only [bind, Except.bind, pure, Except.pure, Except.ok.injEq]
        rw [List.forall₂_cons_left_iff]
        constructor
        · rintro rfl
          exact ⟨b, r', hf, ih.1 hl, rfl⟩
        · rintro ⟨b', u, h1, h2, rfl⟩
          rw [hf] at h1
          cases h1
          rw [ih.2 h2] at hl
          cases hl
          rfl

/-- The check of the lengths. -/
theorem lengths_fold (l : List ℕ) (hpos : ∀ n ∈ l, 0 < n) (acc len : ℕ) :
    l.foldlM (fun acc n => if acc = 0 ∨ acc = n then Except.ok n
      else Except.error Err.unevenColumnLengths) acc = .ok len ↔
      (l = [] ∧ len = acc) ∨ (l ≠ [] ∧ (∀ n ∈ l, n = len) ∧ (acc = 0 ∨ acc = len)) := by
  induction l generalizing acc with
  | nil => simp [pure, Except.pure, eq_comm]
  | cons n l ih =>
    have hn := hpos n (List.mem_cons_self ..)
    rw [List.foldlM_cons]
    by_cases hc : acc = 0 ∨ acc = n
    · rw [if_pos hc]
      simp only [bind, Except.bind]
      rw [ih (fun m hm => hpos m (List.mem_cons_of_mem _ hm))]
      constructor
      · rintro (⟨rfl, rfl⟩ | ⟨h1, h2, h3⟩)
        · right
          exact ⟨by simp, by simp, hc⟩
        · right
          have hnl : n = len := by rcases h3 with h3 | h3; omega; exact h3
          refine ⟨by simp, ?_, hnl ▸ hc⟩
          intro m hm
          rcases List.mem_cons.1 hm with rfl | hm
          · exact hnl
          · exact h2 m hm
      · rintro (⟨h1, -⟩ | ⟨-, h2, h3⟩)
        · simp at h1
        · have hnl := h2 n (List.mem_cons_self ..)
          by_cases hl : l = []
          · exact Or.inl ⟨hl, hnl.symm⟩
          · exact Or.inr ⟨hl, fun m hm => h2 m (List.mem_cons_of_mem _ hm), Or.inr hnl⟩
    · rw [if_neg hc]
      simp only [bind, Except.bind, reduceCtorEq, false_iff]
      rintro (⟨h1, -⟩ | ⟨-, h2, h3⟩)
      · simp at h1
      · rw [← h2 n (List.mem_cons_self ..)] at h3
        exact hc h3

theorem columnLength_ok (e : Entry V) (n : ℕ) : columnLength e = .ok n ↔
    e.default.isSome ∧ 0 < n ∧ e.assigned.length = n ∧ ∀ r, r < n → e.assigned[r]? = some true := by
  unfold columnLength
  by_cases h1 : e.default.isNone ∨ e.assigned = []
  · rw [if_pos h1]
    simp only [reduceCtorEq, false_iff]
    rintro ⟨h2, h3, h4, -⟩
    rcases h1 with h1 | h1
    · rw [Option.isNone_iff_eq_none] at h1
      rw [h1] at h2
      simp at h2
    · rw [h1] at h4
      simp at h4
      omega
  · rw [if_neg h1]
    push Not at h1
    have hd : e.default.isSome := by
      rw [Option.isSome_iff_ne_none]
      intro hc
      exact h1.1 (by rw [hc]; rfl)
    have hp : 0 < e.assigned.length := List.length_pos_iff.2 h1.2
    have hall : e.assigned.all id = true ↔ ∀ r, r < e.assigned.length → e.assigned[r]? = some true := by
      rw [List.all_eq_true]
      constructor
      · intro h r hr
        rw [List.getElem?_eq_getElem hr]
        exact congrArg some (h _ (List.getElem_mem hr))
      · intro h x hx
        obtain ⟨r, hr, rfl⟩ := List.getElem_of_mem hx
        have := h r hr
        rw [List.getElem?_eq_getElem hr] at this
        exact Option.some.inj this
    split_ifs with h2
    · simp only [Except.ok.injEq]
      constructor
      · rintro rfl
        exact ⟨hd, hp, rfl, hall.1 h2⟩
      · rintro ⟨-, -, h3, -⟩
        exact h3
    · simp only [reduceCtorEq, false_iff]
      rintro ⟨-, -, rfl, h4⟩
      exact h2 (hall.2 h4)

/-- The columns after the filling. -/
theorem fill_ok {l : Layouter V} {first : ℕ} (keys : List ℕ) (hnd : keys.Nodup)
    (hdef : ∀ c ∈ keys, ∃ v, (l.entry c).default = some (some v)) (cs : Assembly V)
    (hcol : ∀ c ∈ keys, c < cs.columns) (hroom : keys ≠ [] → first < cs.usable) :
    ∃ cs', keys.foldlM (fillColumn l first) cs = .ok cs' ∧
      cs'.usable = cs.usable ∧ cs'.columns = cs.columns ∧
      (∀ c, c ∉ keys → cs'.fixed c = cs.fixed c) ∧
      (∀ c ∈ keys, ∀ v, (l.entry c).default = some (some v) → ∀ r,
        cs'.fixed c r = if first ≤ r ∧ r < cs.usable then v else cs.fixed c r) := by
  induction keys generalizing cs with
  | nil => exact ⟨cs, rfl, rfl, rfl, fun _ _ => rfl, by simp⟩
  | cons c keys ih =>
    obtain ⟨v, hv⟩ := hdef c (List.mem_cons_self ..)
    have hnd' := List.nodup_cons.1 hnd
    have hr := hroom (by simp)
    have hc := hcol c (List.mem_cons_self ..)
    set cs₁ : Assembly V := ⟨cs.usable, cs.columns, Function.update cs.fixed c
      (fun r => if first ≤ r ∧ r < cs.usable then v else cs.fixed c r)⟩ with hcs₁
    have hf : cs.fillFromRow c first (some v) = .ok cs₁ := by
      unfold Assembly.fillFromRow
      rw [if_neg (not_not.2 hr), if_neg (not_not.2 hc)]
    obtain ⟨cs', e1, e2, e3, e4, e5⟩ := ih hnd'.2
      (fun d hd => hdef d (List.mem_cons_of_mem _ hd)) cs₁
      (fun d hd => hcol d (List.mem_cons_of_mem _ hd)) (fun _ => hr)
    refine ⟨cs', ?_, e2, e3, ?_, ?_⟩
    · rw [List.foldlM_cons]
      simp only [fillColumn, hv, hf, bind, Except.bind]
      exact e1
    · intro d hd
      simp only [List.mem_cons, not_or] at hd
      rw [e4 d hd.2, hcs₁]
      exact Function.update_of_ne hd.1 _ _
    · intro d hd w hw r
      rcases List.mem_cons.1 hd with rfl | hd
      · rw [hv] at hw
        cases hw
        rw [e4 d hnd'.1, hcs₁]
        simp
      · have hne : d ≠ c := fun hdc => hnd'.1 (hdc ▸ hd)
        rw [e5 d hd w hw r, hcs₁]
        simp [Function.update_of_ne hne]

theorem fill_room {l : Layouter V} {first : ℕ} {keys : List ℕ} {cs cs' : Assembly V}
    (h : keys.foldlM (fillColumn l first) cs = .ok cs') (hne : keys ≠ []) : first < cs.usable := by
  rcases keys with _ | ⟨c, keys⟩
  · exact absurd rfl hne
  · by_contra hcon
    rw [List.foldlM_cons] at h
    rcases hd : (l.entry c).default with _ | d
    · simp only [fillColumn, hd] at h; cases h
    · simp only [fillColumn, hd, Assembly.fillFromRow, hcon, not_false_eq_true, if_true] at h
      cases h

/-- **C20**: `assign_table` succeeds exactly when the calls are those of a table: fresh columns, all
of the same length, without gaps and shorter than the usable rows, with the first row of each assigned
once.  Then the table is completely defined: the rows of the table hold the values assigned last, the
other usable rows hold the value of the first row, nothing else changes, and the columns are recorded
as used. -/
theorem assignTable_ok {order : List ℕ → List ℕ} (horder : ∀ l, (order l).Perm l) (a : Assembly V)
    (used : List ℕ) (calls : List (Call V)) :
    (∀ a' used', assignTable order a used calls = .ok (a', used') →
      ∃ len, Good a used calls len ∧ Filled a a' calls len ∧
        ∀ c, c ∈ used' ↔ c ∈ used ∨ Assigns calls c) ∧
    (∀ len, Good a used calls len → ∃ a' used', assignTable order a used calls = .ok (a', used')) := by
  have hinit := Inv.init a used
  obtain ⟨hr1, hr2⟩ := run_ok calls [] _ hinit
  rw [List.nil_append] at hr1 hr2
  -- the keys
  have hperm : ∀ l : Layouter V, Inv a used calls l → ((order l.keys).Nodup ∧
      ∀ c, c ∈ order l.keys ↔ Assigns calls c) := fun l h =>
    ⟨(horder _).nodup_iff.2 h.nodup, fun c => by rw [(horder _).mem_iff, h.keys]⟩
  -- the lengths
  have hlen : ∀ (l : Layouter V) (h : Inv a used calls l) (len : ℕ),
      computeTableLengths ((order l.keys).map l.entry) = .ok len ↔
      (order l.keys = [] ∧ len = 0) ∨ (order l.keys ≠ [] ∧ 0 < len ∧
        ∀ c, Assigns calls c → ∀ r, AssignsCell calls c r ↔ r < len) := by
    intro l h len
    obtain ⟨hn, hm⟩ := hperm l h
    -- one column
    have hcl : ∀ c, Assigns calls c → ∀ n, columnLength (l.entry c) = .ok n ↔
        0 < n ∧ ∀ r, AssignsCell calls c r ↔ r < n := by
      intro c hc n
      have hck := (h.keys c).2 hc
      rw [columnLength_ok]
      constructor
      · rintro ⟨h1, h2, h3, h4⟩
        refine ⟨h2, fun r => ?_⟩
        rw [← h.marks c hck]
        constructor
        · intro h5
          rw [← h3]
          exact (List.getElem?_eq_some_iff.1 h5).1
        · exact h4 r
      · rintro ⟨h2, h3⟩
        have hl : (l.entry c).assigned.length = n := by
          obtain ⟨m, hm⟩ : ∃ m, (l.entry c).assigned.length = m + 1 :=
            ⟨_, (Nat.succ_pred_eq_of_pos (List.length_pos_iff.2 (h.nonempty c hck))).symm⟩
          have h4 := (h3 m).1 (h.len c hck m hm)
          have h5 := (h.marks c hck (n - 1)).2 ((h3 (n - 1)).2 (by omega))
          have h6 := (List.getElem?_eq_some_iff.1 h5).1
          omega
        refine ⟨?_, h2, hl, fun r hr => (h.marks c hck r).2 ((h3 r).2 hr)⟩
        rw [Option.isSome_iff_ne_none, ne_eq, h.defaultNone c hck, not_not]
        exact (h3 0).2 h2
    have hall : ∀ lens : List ℕ, ((order l.keys).map l.entry).mapM columnLength = .ok lens ↔
        List.Forall₂ (fun c n => 0 < n ∧ ∀ r, AssignsCell calls c r ↔ r < n) (order l.keys) lens := by
      intro lens
      rw [exceptMapM_ok, List.forall₂_map_left_iff]
      have haux : ∀ (ks : List ℕ), (∀ c ∈ ks, Assigns calls c) → ∀ lens : List ℕ,
          List.Forall₂ (fun c n => columnLength (l.entry c) = .ok n) ks lens ↔
          List.Forall₂ (fun c n => 0 < n ∧ ∀ r, AssignsCell calls c r ↔ r < n) ks lens := by
        intro ks
        induction ks with
        | nil => intro _ lens; simp
        | cons c ks ih =>
          intro hks lens
          rw [List.forall₂_cons_left_iff, List.forall₂_cons_left_iff]
          simp only [hcl c (hks c (List.mem_cons_self ..)),
            ih (fun d hd => hks d (List.mem_cons_of_mem _ hd))]
      exact haux _ (fun c hc => (hm c).1 hc) lens
    unfold computeTableLengths
    constructor
    · intro hc
      rcases hl : ((order l.keys).map l.entry).mapM columnLength with e | lens
      · rw [hl] at hc; cases hc
      · rw [hl] at hc
        have hf := (hall lens).1 hl
        have hpos : ∀ n ∈ lens, 0 < n := by
          intro n hn
          obtain ⟨i, hi, rfl⟩ := List.getElem_of_mem hn
          exact ((List.forall₂_iff_get.1 hf).2 i (by rw [hf.length_eq]; exact hi) hi).1
        rcases (lengths_fold lens hpos 0 len).1 hc with ⟨h1, h2⟩ | ⟨h1, h2, -⟩
        · left
          subst h1
          exact ⟨List.forall₂_nil_right_iff.1 hf, h2⟩
        · right
          have hne : order l.keys ≠ [] := by
            intro hnil
            rw [hnil, List.forall₂_nil_left_iff] at hf
            exact h1 hf
          refine ⟨hne, ?_, ?_⟩
          · obtain ⟨n, ns, hns⟩ := List.exists_cons_of_ne_nil h1
            have h3 := h2 n (by rw [hns]; simp)
            rw [← h3]
            exact hpos n (by rw [hns]; simp)
          · intro c hcc
            obtain ⟨i, hi, rfl⟩ := List.getElem_of_mem ((hm c).2 hcc)
            have hi' : i < lens.length := by rw [← hf.length_eq]; exact hi
            have h4 := ((List.forall₂_iff_get.1 hf).2 i hi hi').2
            have h5 := h2 _ (List.getElem_mem hi')
            intro r
            have h6 := h4 r
            simp only [List.get_eq_getElem] at h6
            rw [h6, h5]
    · intro hc
      have hex : ∃ lens, List.Forall₂ (fun c n => 0 < n ∧ ∀ r, AssignsCell calls c r ↔ r < n)
          (order l.keys) lens ∧ lens = (order l.keys).map fun _ => len := by
        refine ⟨_, ?_, rfl⟩
        rw [List.forall₂_map_right_iff, List.forall₂_same]
        intro c hcc
        rcases hc with ⟨h1, -⟩ | ⟨-, h2, h3⟩
        · rw [h1] at hcc; simp at hcc
        · exact ⟨h2, h3 c ((hm c).1 hcc)⟩
      obtain ⟨lens, hf, hlens⟩ := hex
      rw [(hall lens).2 hf]
      change lens.foldlM _ 0 = _
      have hpos : ∀ n ∈ lens, 0 < n := by
        intro n hn
        obtain ⟨i, hi, rfl⟩ := List.getElem_of_mem hn
        exact ((List.forall₂_iff_get.1 hf).2 i (by rw [hf.length_eq]; exact hi) hi).1
      rw [lengths_fold lens hpos]
      rcases hc with ⟨h1, h2⟩ | ⟨h1, -, -⟩
      · left; rw [hlens, h1]; exact ⟨rfl, h2⟩
      · right
        refine ⟨by rw [hlens]; simpa using h1, ?_, Or.inl rfl⟩
        intro n hn
        rw [hlens, List.mem_map] at hn
        obtain ⟨_, _, rfl⟩ := hn
        rfl
  -- the default values are known
  have hdef : ∀ (l : Layouter V), Inv a used calls l → ∀ len, 0 < len →
      (∀ c, Assigns calls c → ∀ r, AssignsCell calls c r ↔ r < len) →
      ∀ c ∈ order l.keys, ∃ v, (l.entry c).default = some (some v) := by
    intro l h len hpos hrows c hc
    have hca := ((hperm l h).2 c).1 hc
    obtain ⟨k, hk, h1, h2⟩ := (hrows c hca 0).2 hpos
    obtain ⟨v, hv⟩ := Option.isSome_iff_exists.1 (h.known k hk)
    exact ⟨v, (h.default c ((h.keys c).2 hca) (some v)).2 ⟨k, hk, h1, h2, hv⟩⟩
  have hnil : ∀ l : Layouter V, Inv a used calls l → (order l.keys = [] ↔ calls = []) := by
    intro l h
    rw [List.eq_nil_iff_forall_not_mem, List.eq_nil_iff_forall_not_mem]
    constructor
    · intro h1 k hk
      exact h1 k.col (((hperm l h).2 _).2 ⟨k, hk, rfl⟩)
    · intro h1 c hc
      obtain ⟨k, hk, -⟩ := ((hperm l h).2 c).1 hc
      exact h1 k hk
  unfold assignTable
  constructor
  · intro a' used' heq
    rcases hrun : Layouter.run used (⟨a, [], fun _ => ⟨none, []⟩⟩ : Layouter V) calls with e | l
    · rw [hrun] at heq; cases heq
    rw [hrun] at heq
    have h := hr2 l hrun
    change finish order used l = _ at heq
    unfold finish at heq
    dsimp only at heq
    rcases hcl : computeTableLengths ((order l.keys).map l.entry) with e | len
    · rw [hcl] at heq; cases heq
    rw [hcl] at heq
    dsimp only [bind, Except.bind] at heq
    rcases hfold : (order l.keys).foldlM (fillColumn l len) l.cs with e | cs'
    · exfalso
      revert heq
      rw [hfold]
      intro heq
      cases heq
    have heq' : a' = cs' ∧ used' = used ++ order l.keys := by
      revert heq
      rw [hfold]
      intro heq
      cases heq
      exact ⟨rfl, rfl⟩
    obtain ⟨rfl, rfl⟩ := heq'
    have hl := (hlen l h len).1 hcl
    have hfill := fill_room hfold
    have hrows : ∀ c, Assigns calls c → ∀ r, AssignsCell calls c r ↔ r < len := by
      rcases hl with ⟨h1, -⟩ | ⟨-, -, h3⟩
      · intro c hc
        have := ((hperm l h).2 c).2 hc
        rw [h1] at this
        simp at this
      · exact h3
    have hroom : calls ≠ [] → 0 < len ∧ len < a.usable := by
      intro hne
      rcases hl with ⟨h1, -⟩ | ⟨h1, h2, -⟩
      · exact absurd ((hnil l h).1 h1) hne
      · exact ⟨h2, h.usable ▸ hfill h1⟩
    have hd : ∀ c ∈ order l.keys, ∃ v, (l.entry c).default = some (some v) := by
      intro c hc
      have hne : calls ≠ [] := fun h1 => by
        have := (hnil l h).2 h1
        rw [this] at hc
        simp at hc
      exact hdef l h len (hroom hne).1 hrows c hc
    have hcolb : ∀ c ∈ order l.keys, c < l.cs.columns := by
      intro c hc
      obtain ⟨k, hk, rfl⟩ := ((hperm l h).2 c).1 hc
      rw [h.columns]
      exact (h.fresh k hk).2
    obtain ⟨cs'', e1, e2, e3, e4, e5⟩ := fill_ok (first := len) (order l.keys) (hperm l h).1 hd l.cs
      hcolb hfill
    rw [hfold] at e1
    cases e1
    refine ⟨len, ⟨h.fresh, h.known, hrows, h.once, hroom⟩, ?_, ?_⟩
    · -- rows of the table
      have hrowval : ∀ c, Assigns calls c → ∀ r, r < len → a'.fixed c r = l.cs.fixed c r := by
        intro c hc r hr
        obtain ⟨v, hv⟩ := hd c (((hperm l h).2 c).2 hc)
        rw [e5 c (((hperm l h).2 c).2 hc) v hv r, if_neg (by omega)]
      refine ⟨e2.trans h.usable, e3.trans h.columns, ?_, ?_, ?_, ?_⟩
      · intro pre k post heq hpost
        have hk : k ∈ calls := by rw [heq]; simp
        rw [hrowval k.col ⟨k, hk, rfl⟩ k.off
          ((hrows k.col ⟨k, hk, rfl⟩ k.off).1 ⟨k, hk, rfl, rfl⟩)]
        exact h.last pre k post heq hpost
      · intro c hc r hr1 hr2
        have hmem := ((hperm l h).2 c).2 hc
        obtain ⟨v, hv⟩ := hd c hmem
        have hne : calls ≠ [] := by
          obtain ⟨k, hk, -⟩ := hc
          exact List.ne_nil_of_mem hk
        rw [e5 c hmem v hv r, h.usable, if_pos ⟨hr1, hr2⟩, hrowval c hc 0 (hroom hne).1]
        -- the value of the first row
        obtain ⟨k, hk, rfl, h0, hkv⟩ := (h.default c ((h.keys c).2 hc) (some v)).1 hv
        obtain ⟨pre, post, hpp⟩ := List.append_of_mem hk
        have hlast := h.last pre k post hpp (by
          intro k' hk' ⟨hc1, hc2⟩
          have hpw := h.once
          rw [hpp] at hpw
          have := (List.pairwise_cons.1 (List.pairwise_append.1 hpw).2.1).1 k' hk'
          exact this ⟨hc1.symm, h0, by rw [hc2, h0]⟩)
        rw [h0, hkv] at hlast
        exact (Option.some.inj hlast).symm
      · intro c r hr
        have hno : ¬ AssignsCell calls c r := by
          rintro ⟨k, hk, -, rfl⟩
          have := h.below k hk
          omega
        by_cases hc : Assigns calls c
        · have hmem := ((hperm l h).2 c).2 hc
          obtain ⟨v, hv⟩ := hd c hmem
          rw [e5 c hmem v hv r, h.usable, if_neg (by omega)]
          exact h.other c r hno
        · rw [e4 c (fun hm => hc (((hperm l h).2 c).1 hm))]
          exact h.other c r hno
      · intro c hc
        rw [e4 c (fun hm => hc (((hperm l h).2 c).1 hm))]
        funext r
        exact h.other c r fun hcell => hc hcell.assigns
    · intro c
      rw [List.mem_append, (hperm l h).2]
  · intro len hg
    have hacc : Accepted a used calls := by
      refine ⟨hg.fresh, hg.known, fun k hk => ?_, hg.once⟩
      have h1 := (hg.rows k.col ⟨k, hk, rfl⟩ k.off).1 ⟨k, hk, rfl, rfl⟩
      have h2 := (hg.room (List.ne_nil_of_mem hk)).2
      omega
    obtain ⟨l, hrun, h⟩ := hr1 hacc
    rw [hrun]
    change ∃ a' used', finish order used l = _
    unfold finish
    dsimp only
    by_cases hne : calls = []
    · have hnl := (hnil l h).2 hne
      rw [(hlen l h 0).2 (Or.inl ⟨hnl, rfl⟩), hnl]
      exact ⟨_, _, rfl⟩
    · have hnl : order l.keys ≠ [] := fun hc => hne ((hnil l h).1 hc)
      obtain ⟨hp, hu⟩ := hg.room hne
      rw [(hlen l h len).2 (Or.inr ⟨hnl, hp, hg.rows⟩)]
      obtain ⟨cs', e1, -⟩ := fill_ok (first := len) (order l.keys) (hperm l h).1
        (hdef l h len hp hg.rows) l.cs (by
          intro c hc
          obtain ⟨k, hk, rfl⟩ := ((hperm l h).2 c).1 hc
          rw [h.columns]
          exact (h.fresh k hk).2) (fun _ => by rw [h.usable]; exact hu)
      dsimp only [bind, Except.bind]
      rw [e1]
      exact ⟨_, _, rfl⟩

/-- **C20**: a table as long as the usable rows is refused, even without a gap. -/
theorem assignTable_full {order : List ℕ → List ℕ} (horder : ∀ l, (order l).Perm l) (a : Assembly V)
    (used : List ℕ) {calls : List (Call V)} (hne : calls ≠ [])
    (hrows : ∀ c, Assigns calls c → ∀ r, r < a.usable → AssignsCell calls c r) :
    ∀ r, assignTable order a used calls ≠ .ok r := by
  rintro ⟨a', used'⟩ h
  obtain ⟨len, hg, -⟩ := (assignTable_ok horder a used calls).1 a' used' h
  obtain ⟨k, ks, hk⟩ := List.exists_cons_of_ne_nil hne
  have hc : Assigns calls k.col := ⟨k, by rw [hk]; simp, rfl⟩
  have h1 := (hg.room hne).2
  have h2 := (hg.rows k.col hc len).1 (hrows k.col hc len h1)
  omega

/-- **C20**: several tables: no column is used by two of them, and each table is still defined at the
end. -/
theorem assignTables_ok {order : List ℕ → List ℕ} (horder : ∀ l, (order l).Perm l) (a : Assembly V)
    (used : List ℕ) (tables : List (List (Call V))) {a' : Assembly V} {used' : List ℕ}
    (h : assignTables order a used tables = .ok (a', used')) :
    (tables.Pairwise fun s t => ∀ c, Assigns s c → ¬ Assigns t c) ∧
    (∀ t ∈ tables, ∃ len, Good a used t len ∧
      ∃ b, b.usable = a.usable ∧ (∀ c, Assigns t c → b.fixed c = a.fixed c) ∧
        ∃ b', Filled b b' t len ∧ ∀ c, Assigns t c → a'.fixed c = b'.fixed c) ∧
    (∀ c, c ∈ used' ↔ c ∈ used ∨ ∃ t ∈ tables, Assigns t c) ∧
    (∀ c, (∀ t ∈ tables, ¬ Assigns t c) → a'.fixed c = a.fixed c) ∧
    a'.usable = a.usable ∧ a'.columns = a.columns := by
  induction tables generalizing a used with
  | nil => cases h; simp
  | cons t tables ih =>
    unfold assignTables at h
    rw [List.foldlM_cons] at h
    rcases ht : assignTable order a used t with e | ⟨b, used₁⟩
    · rw [ht] at h; cases h
    · rw [ht] at h
      obtain ⟨len, hg, hf, hu⟩ := (assignTable_ok horder a used t).1 b used₁ ht
      obtain ⟨h1, h2, h3, h4, h5, h6⟩ := ih b used₁ h
      -- later tables do not touch the columns of this one
      have hdis : ∀ t' ∈ tables, ∀ c, Assigns t c → ¬ Assigns t' c := by
        rintro t' ht' c hc ⟨k, hk, rfl⟩
        obtain ⟨len', hg', -⟩ := h2 t' ht'
        exact (hg'.fresh k hk).1 ((hu k.col).2 (Or.inr hc))
      refine ⟨List.pairwise_cons.2 ⟨hdis, h1⟩, ?_, ?_, ?_, h5.trans hf.usable,
        h6.trans hf.columns⟩
      · intro t' ht'
        rcases List.mem_cons.1 ht' with rfl | ht'
        · exact ⟨len, hg, a, rfl, fun _ _ => rfl, b, hf, fun c hc =>
            h4 c fun t'' ht'' => hdis t'' ht'' c hc⟩
        · obtain ⟨len', hg', x, hx1, hx2, x', hx3, hx4⟩ := h2 t' ht'
          refine ⟨len', ⟨fun k hk => ⟨fun hc => (hg'.fresh k hk).1 ((hu k.col).2 (Or.inl hc)), ?_⟩,
            hg'.known, hg'.rows, hg'.once, fun hne => hf.usable ▸ hg'.room hne⟩,
            x, hx1.trans hf.usable, ?_, x', hx3, hx4⟩
          · rw [← hf.columns]; exact (hg'.fresh k hk).2
          · intro c hc
            rw [hx2 c hc, hf.other c fun hct => hdis t' ht' c hct hc]
      · intro c
        rw [h3, hu]
        simp [or_assoc]
      · intro c hc
        rw [h4 c fun t' ht' => hc t' (List.mem_cons_of_mem _ ht'),
          hf.other c (hc t (List.mem_cons_self ..))]

/-- The check relies on the closure returning the errors of its calls: one that ignores the error of a
second assignment to the first row gets a table whose first row has the second value and whose other
rows are filled with the first one. -/
theorem ignored_overwrite : ∃ (a' : Assembly ℕ) (used' : List ℕ),
    finish id [] ((Layouter.mk ⟨4, 1, fun _ _ => 0⟩ [] fun _ => ⟨none, []⟩).runIgnoring []
      [⟨0, 0, some 7⟩, ⟨0, 0, some 8⟩]) = .ok (a', used') ∧ a'.fixed 0 0 = 8 ∧ a'.fixed 0 1 = 7 :=
  ⟨_, _, rfl, rfl, rfl⟩

/-! ## A table of two columns and three rows -/

/-- The calls of the table. -/
def demo : List (Call ℕ) :=
  [⟨2, 0, some 5⟩, ⟨4, 0, some 1⟩, ⟨2, 2, some 6⟩, ⟨4, 1, some 2⟩, ⟨2, 1, some 9⟩, ⟨4, 2, some 3⟩,
   ⟨2, 1, some 8⟩]

theorem demo_good : Good (⟨6, 5, fun _ _ => 0⟩ : Assembly ℕ) [0, 1] demo 3 := by
  constructor
  · simp [demo]
  · simp [demo]
  · rintro c ⟨k, hk, rfl⟩ r
    have h : r < 3 ↔ r = 0 ∨ r = 1 ∨ r = 2 := by omega
    rw [h]
    simp only [demo, List.mem_cons, List.not_mem_nil, or_false] at hk
    rcases hk with rfl | rfl | rfl | rfl | rfl | rfl | rfl <;> simp [AssignsCell, demo] <;> omega
  · simp [demo]
  · simp

example : ∃ a' used', assignTable List.reverse (⟨6, 5, fun _ _ => 0⟩ : Assembly ℕ) [0, 1] demo =
    .ok (a', used') :=
  (assignTable_ok (fun l => List.reverse_perm l) _ _ _).2 3 demo_good

example : ∀ a' used', assignTable List.reverse (⟨6, 5, fun _ _ => 0⟩ : Assembly ℕ) [0, 1] demo =
    .ok (a', used') → (List.range 7).map (a'.fixed 2) = [5, 8, 6, 5, 5, 5, 0] := by
  rintro a' used' h
  cases h
  decide

end Verif.Table
