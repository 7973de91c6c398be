import Verif.Merkle.Complete

/-!
# What a root says about the leaf

Two different messages with the same hash always exist; what should be hard is to find them.  The
theorems therefore say which messages collide: those hashed in the same layer of the two openings.
-/

namespace Verif.Merkle

open Verif.Region Verif.Ecc Verif.Utilities Verif.Sinsemilla

variable {C S : Type} {p : ℕ} [Fact p.Prime] {b : ZMod p}

/-- `Crh` with the message `m` that is hashed. -/
def CrhBy (gen : ℕ → Pt b) (Q : Pt b) (l : ℕ) (left right next : ZMod p) (m : List ℕ) : Prop :=
  l < 2 ^ 10 ∧ ∃ ls rs : ℕ, ls < 2 ^ 255 ∧ rs < 2 ^ 255 ∧ (ls : ZMod p) = left ∧ (rs : ZMod p) = right ∧
    m = crhWords l ls rs ∧
    (Collides gen Q m ∨ ∃ R, specHash gen Q m = some R ∧ next = (enc R).1)

/-- `Root` with the messages that are hashed, layer by layer. -/
def RootBy (gen : ℕ → Pt b) (Q : Pt b) :
    ℕ → ZMod p → List (ZMod p × Bool) → ZMod p → List (List ℕ) → Prop
  | _, node, [], root, ms => root = node ∧ ms = []
  | l, node, (sibling, pos) :: rest, root, ms =>
    ∃ next m ms', ms = m :: ms' ∧
      CrhBy gen Q l (if pos then sibling else node) (if pos then node else sibling) next m ∧
      RootBy gen Q (l + 1) next rest root ms'

theorem crh_iff {gen : ℕ → Pt b} {Q : Pt b} {l : ℕ} {left right next : ZMod p} :
    Crh gen Q l left right next ↔ ∃ m, CrhBy gen Q l left right next m := by
  constructor
  · rintro ⟨hl, ls, rs, b1, b2, e1, e2, h⟩
    exact ⟨_, hl, ls, rs, b1, b2, e1, e2, rfl, h⟩
  · rintro ⟨m, hl, ls, rs, b1, b2, e1, e2, rfl, h⟩
    exact ⟨hl, ls, rs, b1, b2, e1, e2, h⟩

theorem root_iff {gen : ℕ → Pt b} {Q : Pt b} {l : ℕ} {node root : ZMod p}
    {path : List (ZMod p × Bool)} :
    Root gen Q l node path root ↔ ∃ ms, RootBy gen Q l node path root ms := by
  induction path generalizing l node with
  | nil => exact ⟨fun h => ⟨[], h, rfl⟩, fun ⟨_, h, _⟩ => h⟩
  | cons s rest ih =>
    constructor
    · rintro ⟨next, k1, k2⟩
      obtain ⟨m, k1⟩ := crh_iff.1 k1
      obtain ⟨ms, k2⟩ := ih.1 k2
      exact ⟨m :: ms, next, m, ms, rfl, k1, k2⟩
    · rintro ⟨ms, next, m, ms', -, k1, k2⟩
      exact ⟨next, crh_iff.2 ⟨m, k1⟩, ih.2 ⟨ms', k2⟩⟩

/-- The messages are different and their hashes have the same x-coordinate, or one of them is such that
the accumulator meets a generator. -/
def Breaks (gen : ℕ → Pt b) (Q : Pt b) (m m' : List ℕ) : Prop :=
  (m ≠ m' ∧ ∃ R R', specHash gen Q m = some R ∧ specHash gen Q m' = some R' ∧ (enc R).1 = (enc R').1) ∨
  Collides gen Q m ∨ Collides gen Q m'

theorem crhWords_length (l x y : ℕ) : (crhWords l x y).length = 52 := by simp [crhWords, toWords]

/-- The hash of two nodes determines them, unless the messages hashed break Sinsemilla. -/
theorem crh_binding {gen : ℕ → Pt b} {Q : Pt b} {l : ℕ} {left right left' right' next : ZMod p}
    {m m' : List ℕ} (h : CrhBy gen Q l left right next m) (h' : CrhBy gen Q l left' right' next m') :
    (left = left' ∧ right = right') ∨ Breaks gen Q m m' := by
  obtain ⟨hl, ls, rs, b1, b2, rfl, rfl, rfl, h⟩ := h
  obtain ⟨-, ls', rs', b3, b4, rfl, rfl, rfl, h'⟩ := h'
  rcases h with h | ⟨R, hR, e⟩
  · exact .inr (.inr (.inl h))
  rcases h' with h' | ⟨R', hR', e'⟩
  · exact .inr (.inr (.inr h'))
  by_cases heq : crhWords l ls rs = crhWords l ls' rs'
  · obtain ⟨rfl, rfl⟩ := crhWords_inj hl b1 b2 b3 b4 heq
    exact .inl ⟨rfl, rfl⟩
  · exact .inr (.inl ⟨heq, R, R', hR, hR', e.symm.trans e'⟩)

/-- Two openings of the same root at the same position have the same leaf and the same siblings, or in
some layer the messages hashed in the two openings break Sinsemilla. -/
theorem root_binding {gen : ℕ → Pt b} {Q : Pt b} {l : ℕ} {node node' root : ZMod p}
    {path path' : List (ZMod p × Bool)} {ms ms' : List (List ℕ)} (h : RootBy gen Q l node path root ms)
    (h' : RootBy gen Q l node' path' root ms') (hpos : path.map Prod.snd = path'.map Prod.snd) :
    (node = node' ∧ path = path') ∨
      ∃ (i : ℕ) (m m' : List ℕ), ms[i]? = some m ∧ ms'[i]? = some m' ∧ Breaks gen Q m m' := by
  induction path generalizing l node node' path' ms ms' with
  | nil =>
    cases path' with
    | nil => exact .inl ⟨h.1.symm.trans h'.1, rfl⟩
    | cons _ _ => simp at hpos
  | cons s rest ih =>
    cases path' with
    | nil => simp at hpos
    | cons s' rest' =>
      obtain ⟨sib, pos⟩ := s
      obtain ⟨sib', pos'⟩ := s'
      rw [List.map_cons, List.map_cons, List.cons.injEq] at hpos
      obtain ⟨rfl : pos = pos', hpos⟩ := hpos
      obtain ⟨next, m, ms, rfl, k1, k2⟩ := h
      obtain ⟨next', m', ms', rfl, k3, k4⟩ := h'
      rcases ih k2 k4 hpos with ⟨rfl, rfl⟩ | ⟨i, n, n', e1, e2, hb⟩
      · rcases crh_binding k1 k3 with ⟨e1, e2⟩ | hb
        · left
          cases pos
          · simp only [Bool.false_eq_true, if_false] at e1 e2
            subst e1 e2; exact ⟨rfl, rfl⟩
          · simp only [if_true] at e1 e2
            subst e1 e2; exact ⟨rfl, rfl⟩
        · exact .inr ⟨0, m, m', rfl, rfl, hb⟩
      · exact .inr ⟨i + 1, n, n', by simpa using e1, by simpa using e2, hb⟩

theorem ofBits_lt (l : List Bool) : ofBits l < 2 ^ l.length := by
  induction l with
  | nil => simp [ofBits]
  | cons x l ih =>
    rw [ofBits, List.length_cons, pow_succ]
    cases x <;> simp <;> omega

/-- The messages of an opening have 52 words. -/
theorem RootBy.length {gen : ℕ → Pt b} {Q : Pt b} {l : ℕ} {node root : ZMod p}
    {path : List (ZMod p × Bool)} {ms : List (List ℕ)} (h : RootBy gen Q l node path root ms) :
    ∀ m ∈ ms, m.length = 52 ∧ ∀ w ∈ m, w < 2 ^ 10 := by
  induction path generalizing l node ms with
  | nil => obtain ⟨-, rfl⟩ := h; simp
  | cons s rest ih =>
    obtain ⟨next, m, ms', rfl, k1, k2⟩ := h
    intro m' hm
    rcases List.mem_cons.1 hm with rfl | hm
    · obtain ⟨-, ls, rs, -, -, -, -, rfl, -⟩ := k1
      refine ⟨crhWords_length _ _ _, fun w hw => ?_⟩
      obtain ⟨i, -, rfl⟩ := List.mem_map.1 hw
      refine lt_of_lt_of_le (ofBits_lt _) (Nat.pow_le_pow_right (by norm_num) ?_)
      simp
    · exact ih k2 m' hm

end Verif.Merkle
