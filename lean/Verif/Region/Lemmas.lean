import Verif.Region.Model

namespace Verif.Region

variable {C S F α β : Type}

theorem bind_apply (x : M C S F α) (f : α → M C S F β) (n : ℕ) :
    (x >>= f) n = match x n with
      | none => none
      | some (a, n', ops) =>
        match f a n' with
        | none => none
        | some (b, n'', ops') => some (b, n'', ops ++ ops') := rfl

theorem bind_some {x : M C S F α} {f : α → M C S F β} {n : ℕ} {b : β} {n'' : ℕ}
    {ops : List (Op C S F)} (h : (x >>= f) n = some (b, n'', ops)) :
    ∃ a n' ops₁ ops₂, x n = some (a, n', ops₁) ∧ f a n' = some (b, n'', ops₂) ∧
      ops = ops₁ ++ ops₂ := by
  rw [bind_apply] at h
  rcases hx : x n with _ | ⟨a, n', ops₁⟩
  · rw [hx] at h; cases h
  · rw [hx] at h
    dsimp only at h
    rcases hf : f a n' with _ | ⟨b', n₂, ops₂⟩
    · rw [hf] at h; cases h
    · rw [hf] at h; cases h
      exact ⟨a, n', ops₁, ops₂, rfl, hf, rfl⟩

theorem bind_of {x : M C S F α} {f : α → M C S F β} {n n' n'' : ℕ} {a : α} {b : β}
    {ops₁ ops₂ : List (Op C S F)} (hx : x n = some (a, n', ops₁))
    (hf : f a n' = some (b, n'', ops₂)) : (x >>= f) n = some (b, n'', ops₁ ++ ops₂) := by
  rw [bind_apply, hx]; dsimp only; rw [hf]

theorem bind_ok {x : M C S F α} {f : α → M C S F β} {n n' : ℕ} {a : α} {ops₁ : List (Op C S F)}
    (hx : x n = some (a, n', ops₁)) (hf : ∃ r, f a n' = some r) : ∃ r, (x >>= f) n = some r := by
  obtain ⟨⟨b, n'', ops₂⟩, h⟩ := hf
  exact ⟨_, bind_of hx h⟩

theorem assert_some {c : Prop} [Decidable c] {n n' : ℕ} {u : Unit} {ops : List (Op C S F)}
    (h : (assert c : M C S F Unit) n = some (u, n', ops)) : c ∧ n' = n ∧ ops = [] := by
  unfold assert at h
  split_ifs at h with hc
  cases h; exact ⟨hc, rfl, rfl⟩

theorem assert_of {c : Prop} [Decidable c] (h : c) (n : ℕ) :
    (assert c : M C S F Unit) n = some ((), n, []) := if_pos h

theorem assert_bind {c : Prop} [Decidable c] (h : c) (f : Unit → M C S F α) (n : ℕ) :
    (assert c >>= f) n = f () n := by
  rw [bind_apply, assert_of h]
  dsimp only
  rcases f () n with _ | ⟨a, m, o⟩ <;> rfl

variable [Zero F]

theorem Sat.mono {gates gates' : Gates C S F} {G : Grid C F} {ops ops' : List (Op C S F)}
    (h : Sat gates' G ops') (hg : ∀ g ∈ gates, g ∈ gates') (ho : ∀ op ∈ ops, op ∈ ops') :
    Sat gates G ops where
  gates g hg' reg row h' := h.gates g (hg g hg') reg row (ho _ h')
  equal a b h' := h.equal a b (ho _ h')
  const c v h' := h.const c v (ho _ h')
  fixed c v h' := h.fixed c v (ho _ h')

theorem Sat.left {gates : Gates C S F} {G : Grid C F} {ops ops' : List (Op C S F)}
    (h : Sat gates G (ops ++ ops')) : Sat gates G ops :=
  h.mono (fun _ h => h) fun _ h => List.mem_append_left _ h

theorem Sat.right {gates : Gates C S F} {G : Grid C F} {ops ops' : List (Op C S F)}
    (h : Sat gates G (ops ++ ops')) : Sat gates G ops' :=
  h.mono (fun _ h => h) fun _ h => List.mem_append_right _ h

theorem Sat.append {gates : Gates C S F} {G : Grid C F} {ops ops' : List (Op C S F)}
    (h : Sat gates G ops) (h' : Sat gates G ops') : Sat gates G (ops ++ ops') where
  gates g hg reg row hm := (List.mem_append.1 hm).elim (h.gates g hg reg row) (h'.gates g hg reg row)
  equal a b hm := (List.mem_append.1 hm).elim (h.equal a b) (h'.equal a b)
  const c v hm := (List.mem_append.1 hm).elim (h.const c v) (h'.const c v)
  fixed c v hm := (List.mem_append.1 hm).elim (h.fixed c v) (h'.fixed c v)

theorem Sat.nil (gates : Gates C S F) (G : Grid C F) : Sat gates G [] := by
  constructor <;> simp

omit [Zero F] in
theorem Honest.left {G : Grid C F} {ops ops' : List (Op C S F)} (h : Honest G (ops ++ ops')) :
    Honest G ops :=
  ⟨fun c v hm => h.1 c v (List.mem_append_left _ hm),
    fun c v hm => h.2 c v (List.mem_append_left _ hm)⟩

omit [Zero F] in
theorem Honest.right {G : Grid C F} {ops ops' : List (Op C S F)} (h : Honest G (ops ++ ops')) :
    Honest G ops' :=
  ⟨fun c v hm => h.1 c v (List.mem_append_right _ hm),
    fun c v hm => h.2 c v (List.mem_append_right _ hm)⟩

end Verif.Region
