import Verif.Region.Lemmas

/-!
# Programs stay in the regions they create

A layout program records cells and selectors of the regions it creates only.  So the parts of a
circuit do not meet, and what a part imposes can be read off its own record.
-/

namespace Verif.Region

variable {C S F α β : Type}

/-- The region an operation changes. -/
def Op.reg : Op C S F → Option ℕ
  | .advice c _ => some c.reg
  | .fixed c _ => some c.reg
  | .enable _ r _ => some r
  | .equal _ _ => none
  | .const _ _ => none

/-- A program run inside the region `reg`. -/
def Acts (reg : ℕ) (f : M C S F α) : Prop :=
  ∀ n a n' ops, f n = some (a, n', ops) → n' = n ∧ ∀ op ∈ ops, ∀ r, op.reg = some r → r = reg

/-- A program that stays in the regions it creates. -/
def Local (f : M C S F α) : Prop :=
  ∀ n a n' ops, f n = some (a, n', ops) → n ≤ n' ∧ ∀ op ∈ ops, ∀ r, op.reg = some r → n ≤ r ∧ r < n'

theorem Acts.pure {reg : ℕ} (a : α) : Acts reg (pure a : M C S F α) := by
  intro n b n' ops h
  cases h
  simp

theorem Acts.bind {reg : ℕ} {f : M C S F α} {g : α → M C S F β} (hf : Acts reg f)
    (hg : ∀ a, Acts reg (g a)) : Acts reg (f >>= g) := by
  intro n b n' ops h
  obtain ⟨a, m, o, o', h1, h2, rfl⟩ := bind_some h
  obtain ⟨e1, p1⟩ := hf n a m o h1
  obtain ⟨e2, p2⟩ := hg a m b n' o' h2
  refine ⟨e2.trans e1, fun op hm => ?_⟩
  rcases List.mem_append.1 hm with hm | hm
  · exact p1 op hm
  · exact p2 op hm

theorem Acts.emit {reg : ℕ} {op : Op C S F} (h : ∀ r, op.reg = some r → r = reg) :
    Acts reg (emit op) := by
  intro n b n' ops h'
  cases h'
  simpa using h

theorem Acts.assert {reg : ℕ} {c : Prop} [Decidable c] : Acts reg (assert c : M C S F Unit) := by
  intro n b n' ops h
  obtain ⟨-, rfl, rfl⟩ := assert_some h
  simp

theorem Acts.unwrap {reg : ℕ} {x : Option α} : Acts reg (unwrap x : M C S F α) := by
  intro n b n' ops h
  unfold Region.unwrap at h
  cases x <;> cases h
  simp

theorem Acts.assignAdvice {reg : ℕ} {col : C} {offset : ℕ} {v : F} :
    Acts reg (assignAdvice reg col offset v : M C S F _) :=
  (Acts.emit (by simp [Op.reg])).bind fun _ => Acts.pure _

theorem Acts.assignFixed {reg : ℕ} {col : C} {offset : ℕ} {v : F} :
    Acts reg (assignFixed reg col offset v : M C S F _) :=
  (Acts.emit (by simp [Op.reg])).bind fun _ => Acts.pure _

theorem Acts.constrainEqual {reg : ℕ} {a b : Cell C} :
    Acts reg (constrainEqual a b : M C S F _) := Acts.emit (by simp [Op.reg])

theorem Acts.constrainConstant {reg : ℕ} {a : Cell C} {v : F} :
    Acts reg (constrainConstant a v : M C S F _) := Acts.emit (by simp [Op.reg])

theorem Acts.enable {reg : ℕ} {s : S} {offset : ℕ} :
    Acts reg (enable s reg offset : M C S F _) := Acts.emit (by simp [Op.reg])

theorem Acts.assignAdviceFromConstant {reg : ℕ} {col : C} {offset : ℕ} {v : F} :
    Acts reg (assignAdviceFromConstant reg col offset v : M C S F _) :=
  Acts.assignAdvice.bind fun _ => Acts.constrainConstant.bind fun _ => Acts.pure _

theorem Acts.copyAdvice {reg : ℕ} {col : C} {offset : ℕ} {a : ACell C F} :
    Acts reg (a.copyAdvice reg col offset : M C S F _) :=
  Acts.assignAdvice.bind fun _ => Acts.constrainEqual.bind fun _ => Acts.pure _

theorem Local.pure (a : α) : Local (pure a : M C S F α) := by
  intro n b n' ops h
  cases h
  simp

theorem Local.bind {f : M C S F α} {g : α → M C S F β} (hf : Local f) (hg : ∀ a, Local (g a)) :
    Local (f >>= g) := by
  intro n b n' ops h
  obtain ⟨a, m, o, o', h1, h2, rfl⟩ := bind_some h
  obtain ⟨e1, p1⟩ := hf n a m o h1
  obtain ⟨e2, p2⟩ := hg a m b n' o' h2
  refine ⟨Nat.le_trans e1 e2, fun op hm r hr => ?_⟩
  rcases List.mem_append.1 hm with hm | hm
  · have := p1 op hm r hr; omega
  · have := p2 op hm r hr; omega

theorem Local.assert {c : Prop} [Decidable c] : Local (assert c : M C S F Unit) := by
  intro n b n' ops h
  obtain ⟨-, rfl, rfl⟩ := assert_some h
  simp

theorem Local.unwrap {x : Option α} : Local (unwrap x : M C S F α) := by
  intro n b n' ops h
  unfold Region.unwrap at h
  cases x <;> cases h
  simp

theorem Local.assignRegion {f : ℕ → M C S F α} (h : ∀ reg, Acts reg (f reg)) :
    Local (assignRegion f) := by
  intro n b n' ops h'
  obtain ⟨rfl, p⟩ := h n _ _ _ _ h'
  refine ⟨by omega, fun op hm r hr => ?_⟩
  have := p op hm r hr
  omega

theorem unwrap_some {x : Option α} {a : α} {n n' : ℕ} {ops : List (Op C S F)}
    (h : (unwrap x : M C S F α) n = some (a, n', ops)) : x = some a ∧ n' = n ∧ ops = [] := by
  unfold Region.unwrap at h
  cases x <;> cases h
  exact ⟨rfl, rfl, rfl⟩

theorem unwrap_of {x : Option α} {a : α} (h : x = some a) (n : ℕ) :
    (unwrap x : M C S F α) n = some (a, n, []) := by
  rw [h]; rfl

/-- The record `ops` of the regions from `n` to `n'` is a part of the record of a circuit. -/
structure PartOf (ops tot : List (Op C S F)) (n n' : ℕ) : Prop where
  sub : ∀ op ∈ ops, op ∈ tot
  own : ∀ s reg row, n ≤ reg → reg < n' → .enable s reg row ∈ tot → .enable s reg row ∈ ops

theorem PartOf.self (ops : List (Op C S F)) (n n' : ℕ) : PartOf ops ops n n' :=
  ⟨fun _ h => h, fun _ _ _ _ _ h => h⟩

theorem PartOf.nil_left {ops tot : List (Op C S F)} {n n' : ℕ} (h : PartOf ([] ++ ops) tot n n') :
    PartOf ops tot n n' := h

theorem PartOf.bind {f : M C S F α} {g : M C S F β} {n m n' : ℕ} {a : α} {b : β}
    {o o' tot : List (Op C S F)} (hf : Local f) (hg : Local g) (h1 : f n = some (a, m, o))
    (h2 : g m = some (b, n', o')) (h : PartOf (o ++ o') tot n n') :
    PartOf o tot n m ∧ PartOf o' tot m n' := by
  obtain ⟨e1, p1⟩ := hf n a m o h1
  obtain ⟨e2, p2⟩ := hg m b n' o' h2
  refine ⟨⟨fun op hm => h.sub op (List.mem_append_left _ hm), fun s reg row l1 l2 hm => ?_⟩,
    ⟨fun op hm => h.sub op (List.mem_append_right _ hm), fun s reg row l1 l2 hm => ?_⟩⟩
  · rcases List.mem_append.1 (h.own s reg row l1 (by omega) hm) with h' | h'
    · exact h'
    · have := p2 _ h' reg rfl; omega
  · rcases List.mem_append.1 (h.own s reg row (by omega) l2 hm) with h' | h'
    · have := p1 _ h' reg rfl; omega
    · exact h'

end Verif.Region
