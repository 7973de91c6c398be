import Mathlib.Data.Fintype.Prod
import Mathlib.Data.Fintype.Sum
import Mathlib.Data.Fintype.Card
import Mathlib.Tactic.Ring
import Mathlib.Tactic.Linarith
import Verif.Batch.Guard
import Verif.Protocol.Props

/-!
# Batch verification (C23)
-/

namespace Verif.Batch

open Verif.Msm Verif.Transcript Verif.Domain Verif.Protocol
open Verif.Cs (Cs)

variable {F K A : Type} [Field F] [Field K] [LinearOrder K] [AddCommGroup A] [Module F A]

/-! ## The random combination -/

/-- The point a schedule computes from the points of the items. -/
def comb : (s : Shape) → Scalars F s → List A → A
  | .start, _, _ => 0
  | .item s, (ρ, r), l => r • comb s ρ l.dropLast + l.getLastD 0
  | .combine s t, (ρ, τ, r), l => r • comb s ρ (l.take s.items) + comb t τ (l.drop s.items)

theorem comb_zero (s : Shape) (ρ : Scalars F s) (l : List A) (h : ∀ v ∈ l, v = 0) :
    comb s ρ l = 0 := by
  induction s generalizing l with
  | start => rfl
  | item s ih =>
    obtain ⟨ρ, r⟩ := ρ
    have : l.getLastD 0 = 0 := by
      rcases List.eq_nil_or_concat l with rfl | ⟨l', x, rfl⟩
      · rfl
      · simpa using h x (by simp)
    rw [comb, this, ih ρ _ fun v hv => h v (List.dropLast_subset l hv), smul_zero, add_zero]
  | combine s t ih ih' =>
    obtain ⟨ρ, τ, r⟩ := ρ
    rw [comb, ih ρ _ fun v hv => h v (List.mem_of_mem_take hv),
      ih' τ _ fun v hv => h v (List.mem_of_mem_drop hv), smul_zero, add_zero]

instance Scalars.fintype [Fintype F] : (s : Shape) → Fintype (Scalars F s)
  | .start => inferInstanceAs (Fintype Unit)
  | .item s => letI := Scalars.fintype s; inferInstanceAs (Fintype (Scalars F s × F))
  | .combine s t =>
    letI := Scalars.fintype s
    letI := Scalars.fintype t
    inferInstanceAs (Fintype (Scalars F s × Scalars F t × F))

theorem card_scalars [Fintype F] (s : Shape) :
    Fintype.card (Scalars F s) = Fintype.card F ^ s.draws := by
  induction s with
  | start => rfl
  | item s ih =>
    have : Fintype.card (Scalars F (.item s)) = Fintype.card (Scalars F s × F) := rfl
    rw [this, Fintype.card_prod, ih, Shape.draws, pow_succ]
  | combine s t ih ih' =>
    have : Fintype.card (Scalars F (.combine s t))
      = Fintype.card (Scalars F s × Scalars F t × F) := rfl
    rw [this, Fintype.card_prod, Fintype.card_prod, ih, ih', Shape.draws, pow_succ, pow_add]
    ring

open Classical in
theorem card_step [Fintype F] {S T : Type} [Fintype S] [Fintype T] (a : S → A) (b : T → A) :
    Fintype.card {p : S × T × F // p.2.2 • a p.1 + b p.2.1 = 0}
      ≤ Fintype.card {s // a s = 0} * (Fintype.card T * Fintype.card F)
        + Fintype.card S * Fintype.card T := by
  have := Fintype.card_le_of_injective
    (α := {p : S × T × F // p.2.2 • a p.1 + b p.2.1 = 0})
    (β := ({s // a s = 0} × T × F) ⊕ (S × T))
    (fun p => if h : a p.1.1 = 0 then .inl (⟨p.1.1, h⟩, p.1.2.1, p.1.2.2) else .inr (p.1.1, p.1.2.1))
    (by
      rintro ⟨⟨s, t, r⟩, h⟩ ⟨⟨s', t', r'⟩, h'⟩ hp
      dsimp only at h h' hp
      by_cases h0 : a s = 0 <;> by_cases h0' : a s' = 0
      · simp only [h0, h0', dite_true, Sum.inl.injEq, Prod.mk.injEq, Subtype.mk.injEq] at hp
        obtain ⟨rfl, rfl, rfl⟩ := hp; rfl
      · simp [h0, h0'] at hp
      · simp [h0, h0'] at hp
      · simp only [h0, h0', dite_false, Sum.inr.injEq, Prod.mk.injEq] at hp
        obtain ⟨rfl, rfl⟩ := hp
        have : r • a s = r' • a s := by
          rw [add_eq_zero_iff_eq_neg] at h h'; rw [h, h']
        have h1 : (r - r') • a s = 0 := by rw [sub_smul, this, sub_self]
        have : r = r' := by
          by_contra hne
          have hu : (r - r')⁻¹ • ((r - r') • a s) = 0 := by rw [h1, smul_zero]
          rw [smul_smul, inv_mul_cancel₀ (sub_ne_zero.2 hne), one_smul] at hu
          exact h0 hu
        subst this; rfl)
  simpa [Fintype.card_sum, Fintype.card_prod] using this

open Classical in
/-- If some point is not the identity, few choices of scalars make the combination vanish. -/
theorem card_comb [Fintype F] (s : Shape) (l : List A) (hl : l.length = s.items)
    (h : ∃ v ∈ l, v ≠ 0) :
    Fintype.card {ρ : Scalars F s // comb s ρ l = 0} * Fintype.card F
      ≤ s.draws * Fintype.card (Scalars F s) := by
  induction s generalizing l with
  | start =>
    obtain ⟨v, hv, -⟩ := h
    rw [List.length_eq_zero_iff.1 hl] at hv; cases hv
  | item s ih =>
    have hcard : Fintype.card (Scalars F (.item s)) = Fintype.card (Scalars F s) * Fintype.card F :=
      Fintype.card_prod (Scalars F s) F
    have hlen : l.dropLast.length = s.items := by rw [List.length_dropLast, hl, Shape.items]; simp
    rw [hcard, Shape.draws]
    by_cases hz : ∃ v ∈ l.dropLast, v ≠ 0
    · have h1 := ih l.dropLast hlen hz
      have h2 := card_step (F := F) (T := Unit) (fun ρ : Scalars F s => comb s ρ l.dropLast)
        (fun _ => l.getLastD 0)
      have h3 : Fintype.card {ρ : Scalars F (.item s) // comb (.item s) ρ l = 0}
          = Fintype.card {p : Scalars F s × Unit × F //
              p.2.2 • comb s p.1 l.dropLast + l.getLastD 0 = 0} :=
        Fintype.card_congr
          { toFun := fun p => ⟨(p.1.1, (), p.1.2), p.2⟩
            invFun := fun p => ⟨(p.1.1, p.1.2.2), p.2⟩
            left_inv := fun _ => rfl
            right_inv := fun _ => rfl }
      rw [h3]
      simp only [Fintype.card_unit, one_mul, mul_one] at h2
      generalize Fintype.card {p : Scalars F s × Unit × F //
              p.2.2 • comb s p.1 l.dropLast + l.getLastD 0 = 0} = N at h2 ⊢
      nlinarith [Nat.mul_le_mul_right (Fintype.card F) h2, Nat.mul_le_mul_right (Fintype.card F) h1]
    · push Not at hz
      have hv : l.getLastD 0 ≠ 0 := by
        obtain ⟨v, hv, h0⟩ := h
        rcases List.eq_nil_or_concat l with rfl | ⟨l', x, rfl⟩
        · cases hv
        · simp only [List.concat_eq_append, List.dropLast_concat] at hz
          simp only [List.concat_eq_append, List.mem_append, List.mem_singleton] at hv
          rcases hv with hv | rfl
          · exact absurd (hz v hv) h0
          · simpa using h0
      have : Fintype.card {ρ : Scalars F (.item s) // comb (.item s) ρ l = 0} = 0 := by
        rw [Fintype.card_eq_zero_iff]
        refine ⟨fun ⟨⟨ρ, r⟩, hρ⟩ => hv ?_⟩
        rw [comb, comb_zero s ρ _ hz, smul_zero, zero_add] at hρ
        exact hρ
      rw [this, zero_mul]; exact Nat.zero_le _
  | combine s t ih ih' =>
    have hcard : Fintype.card (Scalars F (.combine s t))
        = Fintype.card (Scalars F s) * (Fintype.card (Scalars F t) * Fintype.card F) :=
      (Fintype.card_prod (Scalars F s) (Scalars F t × F)).trans (by rw [Fintype.card_prod])
    have hlen : (l.take s.items).length = s.items := by
      rw [List.length_take, hl, Shape.items]; omega
    have hlen' : (l.drop s.items).length = t.items := by
      rw [List.length_drop, hl, Shape.items]; omega
    rw [hcard, Shape.draws]
    by_cases hz : ∃ v ∈ l.take s.items, v ≠ 0
    · have h1 := ih _ hlen hz
      have h2 := card_step (F := F) (fun ρ : Scalars F s => comb s ρ (l.take s.items))
        (fun τ : Scalars F t => comb t τ (l.drop s.items))
      have h3 : Fintype.card {ρ : Scalars F (.combine s t) // comb (.combine s t) ρ l = 0}
          = Fintype.card {p : Scalars F s × Scalars F t × F //
              p.2.2 • comb s p.1 (l.take s.items) + comb t p.2.1 (l.drop s.items) = 0} := rfl
      rw [h3]
      generalize Fintype.card {p : Scalars F s × Scalars F t × F //
              p.2.2 • comb s p.1 (l.take s.items) + comb t p.2.1 (l.drop s.items) = 0} = N at h2 ⊢
      generalize Fintype.card {ρ : Scalars F s // comb s ρ (l.take s.items) = 0} = M at h1 h2
      generalize Fintype.card (Scalars F s) = S at *
      generalize Fintype.card (Scalars F t) = T at *
      generalize Fintype.card F = q at *
      calc N * q ≤ (M * (T * q) + S * T) * q := Nat.mul_le_mul_right _ h2
        _ = (M * q) * (T * q) + S * T * q := by ring
        _ ≤ (s.draws * S) * (T * q) + S * T * q :=
          Nat.add_le_add_right (Nat.mul_le_mul_right _ h1) _
        _ ≤ (s.draws * S) * (T * q) + S * T * q + t.draws * (S * (T * q)) := Nat.le_add_right _ _
        _ = _ := by ring
    · push Not at hz
      have h1 := ih' _ hlen' (by
        obtain ⟨v, hv, h0⟩ := h
        rw [← List.take_append_drop s.items l, List.mem_append] at hv
        rcases hv with hv | hv
        · exact absurd (hz v hv) h0
        · exact ⟨v, hv, h0⟩)
      have h3 : Fintype.card {ρ : Scalars F (.combine s t) // comb (.combine s t) ρ l = 0}
          = Fintype.card (Scalars F s × {τ : Scalars F t // comb t τ (l.drop s.items) = 0} × F) := by
        have key : ∀ p : Scalars F (.combine s t), comb (.combine s t) p l
            = comb t p.2.1 (l.drop s.items) := by
          rintro ⟨ρ, τ, r⟩
          rw [comb, comb_zero s ρ _ hz, smul_zero, zero_add]
        exact Fintype.card_congr
          { toFun := fun p => (p.1.1, ⟨p.1.2.1, (key p.1).symm.trans p.2⟩, p.1.2.2)
            invFun := fun p => ⟨(p.1, p.2.1.1, p.2.2), (key _).trans p.2.1.2⟩
            left_inv := fun _ => rfl
            right_inv := fun _ => rfl }
      rw [h3, Fintype.card_prod, Fintype.card_prod]
      generalize Fintype.card {τ : Scalars F t // comb t τ (l.drop s.items) = 0} = M at h1
      generalize Fintype.card (Scalars F s) = S at *
      generalize Fintype.card (Scalars F t) = T at *
      generalize Fintype.card F = q at *
      calc S * (M * q) * q = (M * q) * (S * q) := by ring
        _ ≤ (t.draws * T) * (S * q) := Nat.mul_le_mul_right _ h1
        _ ≤ (t.draws * T) * (S * q) + (s.draws + 1) * (S * (T * q)) := Nat.le_add_right _ _
        _ = _ := by ring

/-! ## Runs -/

/-- The values of the items. -/
inductive Denotes (cv : Coords K A) (pr : Params A) : List (Except Err (MSM F K)) → List A → Prop
  | nil : Denotes cv pr [] []
  | cons {m : MSM F K} {v : A} {l : List (Except Err (MSM F K))} {vs : List A} :
      Holds cv pr m v → Denotes cv pr l vs → Denotes cv pr (.ok m :: l) (v :: vs)

theorem Denotes.length {cv : Coords K A} {pr : Params A} {l : List (Except Err (MSM F K))}
    {vs : List A} (h : Denotes cv pr l vs) : vs.length = l.length := by
  induction h with
  | nil => rfl
  | cons _ _ ih => simp [ih]

theorem Denotes.append_inv {cv : Coords K A} {pr : Params A} {l l' : List (Except Err (MSM F K))}
    {vs : List A} (h : Denotes cv pr (l ++ l') vs) :
    Denotes cv pr l (vs.take l.length) ∧ Denotes cv pr l' (vs.drop l.length) := by
  induction l generalizing vs with
  | nil => exact ⟨.nil, h⟩
  | cons x l ih =>
    cases h with
    | cons h1 h2 => exact ⟨.cons h1 (ih h2).1, (ih h2).2⟩

theorem Runs.length {pr : Params A} {s : Shape} {ρ : Scalars F s}
    {l : List (Except Err (MSM F K))} {r : Except Err (MSM F K)} (h : Runs pr s ρ l r) :
    l.length = s.items := by
  induction h with
  | start => rfl
  | item _ _ _ ih => simp [Shape.items, ih]
  | itemErr _ _ _ ih => simp [Shape.items, ih]
  | itemSkip _ _ _ ih => simp [Shape.items, ih]
  | combine _ _ _ ih ih' => simp [Shape.items, ih, ih']
  | errLeft _ _ hl _ ih => simp [Shape.items, ih, hl]
  | errRight _ _ hl _ ih => simp [Shape.items, ih, hl]

/-- If all items have values, the result is the combination. -/
theorem Runs.denotes {cv : Coords K A} (hv : cv.Valid) {pr : Params A} {s : Shape}
    {ρ : Scalars F s} {l : List (Except Err (MSM F K))} {r : Except Err (MSM F K)}
    (h : Runs pr s ρ l r) {vs : List A} (hl : Denotes cv pr l vs) :
    ∃ m, r = .ok m ∧ Holds cv pr m (comb s ρ vs) := by
  induction h generalizing vs with
  | start => exact ⟨_, rfl, holds_new cv pr⟩
  | @item s ρ l acc r m h ih =>
    obtain ⟨h1, h2⟩ := hl.append_inv
    obtain ⟨_, h3, h4⟩ := ih h1
    cases h3
    have hlen := hl.length
    rcases List.eq_nil_or_concat vs with rfl | ⟨vs', v, rfl⟩
    · simp at hlen
    · simp only [List.concat_eq_append, List.length_append, List.length_singleton,
        Nat.add_right_cancel_iff] at hlen
      rw [List.concat_eq_append, ← hlen] at h1 h2
      rw [← hlen] at h4
      simp only [List.take_left, List.drop_left, List.concat_eq_append] at h1 h2 h4
      cases h2 with
      | cons h5 _ =>
        obtain ⟨m', h6, h7⟩ := holds_add hv (holds_scale h4 r) h5
        refine ⟨m', by rw [accumulateMsm, h6]; rfl, ?_⟩
        simpa [comb] using h7
  | itemErr r err h ih =>
    obtain ⟨-, h2⟩ := hl.append_inv
    generalize List.drop _ vs = ws at h2
    cases h2
  | itemSkip r x h ih =>
    obtain ⟨_, h3, -⟩ := ih hl.append_inv.1
    cases h3
  | @combine s t ρ τ l l' a b r h h' ih ih' =>
    obtain ⟨h1, h2⟩ := hl.append_inv
    rw [h.length] at h1 h2
    obtain ⟨_, h3, h4⟩ := ih h1
    obtain ⟨_, h3', h4'⟩ := ih' h2
    cases h3; cases h3'
    obtain ⟨m', h6, h7⟩ := holds_add hv (holds_scale h4 r) h4'
    exact ⟨m', by rw [accumulateMsm, h6]; rfl, h7⟩
  | errLeft τ r _ h ih =>
    obtain ⟨_, h3, -⟩ := ih hl.append_inv.1
    cases h3
  | errRight ρ r _ h ih =>
    obtain ⟨_, h3, -⟩ := ih hl.append_inv.2
    cases h3

/-- If an item failed, so does the run. -/
theorem Runs.failed {pr : Params A} {s : Shape} {ρ : Scalars F s}
    {l : List (Except Err (MSM F K))} {r : Except Err (MSM F K)} (h : Runs pr s ρ l r) {err : Err}
    (hl : .error err ∈ l) : ∃ err', r = .error err' := by
  induction h with
  | start => cases hl
  | item r m h ih =>
    rw [List.mem_append, List.mem_singleton] at hl
    rcases hl with hl | hl
    · obtain ⟨_, h⟩ := ih hl; cases h
    · cases hl
  | itemErr r err h ih => exact ⟨_, rfl⟩
  | itemSkip r x h ih => exact ⟨_, rfl⟩
  | combine r h h' ih ih' =>
    rw [List.mem_append] at hl
    rcases hl with hl | hl
    · obtain ⟨_, h⟩ := ih hl; cases h
    · obtain ⟨_, h⟩ := ih' hl; cases h
  | errLeft τ r _ h ih => exact ⟨_, rfl⟩
  | errRight ρ r _ h ih => exact ⟨_, rfl⟩

/-- An error of a run on values without panics is an error of one of the items. -/
theorem Runs.error {cv : Coords K A} (hv : cv.Valid) {pr : Params A} {s : Shape}
    {ρ : Scalars F s} {l : List (Except Err (MSM F K))} {r : Except Err (MSM F K)}
    (h : Runs pr s ρ l r) (hgood : ∀ m, .ok m ∈ l → Good cv pr m) :
    (∀ err, r = .error err → .error err ∈ l) ∧ ∀ m, r = .ok m → Good cv pr m := by
  induction h with
  | start => exact ⟨by simp, by rintro _ ⟨⟩; exact Good.new⟩
  | @item s ρ l acc r m h ih =>
    have ih := ih fun m hm => hgood m (List.mem_append_left _ hm)
    obtain ⟨v, hv1⟩ := (ih.2 acc rfl).scale r
    obtain ⟨w, hv2⟩ := hgood m (by simp)
    obtain ⟨m', h6, h7⟩ := holds_add hv hv1 hv2
    rw [accumulateMsm, h6]
    exact ⟨by rintro _ ⟨⟩, by rintro _ ⟨⟩; exact ⟨_, h7⟩⟩
  | itemErr r err h ih => exact ⟨by rintro _ ⟨⟩; simp, by rintro _ ⟨⟩⟩
  | itemSkip r x h ih =>
    have ih := ih fun m hm => hgood m (List.mem_append_left _ hm)
    exact ⟨by rintro _ ⟨⟩; exact List.mem_append_left _ (ih.1 _ rfl), by rintro _ ⟨⟩⟩
  | @combine s t ρ τ l l' a b r h h' ih ih' =>
    have ih := ih fun m hm => hgood m (List.mem_append_left _ hm)
    have ih' := ih' fun m hm => hgood m (List.mem_append_right _ hm)
    obtain ⟨v, hv1⟩ := (ih.2 a rfl).scale r
    obtain ⟨w, hv2⟩ := ih'.2 b rfl
    obtain ⟨m', h6, h7⟩ := holds_add hv hv1 hv2
    rw [accumulateMsm, h6]
    exact ⟨by rintro _ ⟨⟩, by rintro _ ⟨⟩; exact ⟨_, h7⟩⟩
  | errLeft τ r _ h ih =>
    have ih := ih fun m hm => hgood m (List.mem_append_left _ hm)
    exact ⟨by rintro _ ⟨⟩; exact List.mem_append_left _ (ih.1 _ rfl), by rintro _ ⟨⟩⟩
  | errRight ρ r _ h ih =>
    have ih := ih fun m hm => hgood m (List.mem_append_right _ hm)
    exact ⟨by rintro _ ⟨⟩; exact List.mem_append_right _ (ih.1 _ rfl), by rintro _ ⟨⟩⟩

/-- Every schedule for the right number of items has a run. -/
theorem Runs.total (pr : Params A) (s : Shape) (ρ : Scalars F s) (l : List (Except Err (MSM F K)))
    (hl : l.length = s.items) : ∃ r, Runs pr s ρ l r := by
  induction s generalizing l with
  | start => rw [List.length_eq_zero_iff.1 hl]; exact ⟨_, .start⟩
  | item s ih =>
    obtain ⟨ρ, r⟩ := ρ
    rcases List.eq_nil_or_concat l with rfl | ⟨l', x, rfl⟩
    · simp [Shape.items] at hl
    · rw [List.concat_eq_append] at hl ⊢
      obtain ⟨acc, h⟩ := ih ρ l' (by simpa [Shape.items] using hl)
      rcases acc with err | acc
      · exact ⟨_, .itemSkip r x h⟩
      · rcases x with err | m
        · exact ⟨_, .itemErr r err h⟩
        · exact ⟨_, .item r m h⟩
  | combine s t ih ih' =>
    obtain ⟨ρ, τ, r⟩ := ρ
    have h1 : (l.take s.items).length = s.items := by
      rw [List.length_take, hl, Shape.items]; omega
    have h2 : (l.drop s.items).length = t.items := by
      rw [List.length_drop, hl, Shape.items]; omega
    obtain ⟨a, ha⟩ := ih ρ _ h1
    obtain ⟨b, hb⟩ := ih' τ _ h2
    rw [← List.take_append_drop s.items l]
    rcases a with err | a
    · exact ⟨_, .errLeft τ r h2 ha⟩
    · rcases b with err | b
      · exact ⟨_, .errRight ρ r h1 hb⟩
      · exact ⟨_, .combine r ha hb⟩

/-! ## Items -/

section

variable [LinearOrder F] [DecidableEq A] {e : Enc F K A} {pr : Params A} {d : Domain F} {cs : Cs F}
  {delta : F} {vk : Vk F A}

/-- `verify_proof` with a `SingleVerifier` on an item: the result, without the final state. -/
def single (e : Enc F K A) (pr : Params A) (d : Domain F) (cs : Cs F) (delta : F) (vk : Vk F A)
    (it : Item F) : Except Err Unit :=
  (verifySingle e pr d cs delta vk it.instances (R.init it.proof)).map (·.1)

/-- The item and the separate verification of the same proof. -/
theorem item_single (he : e.Valid) (hpr : Ipa.ParamsOk pr) (it : Item F) :
    (∃ err, itemResult e pr d cs delta vk it = .error err ∧
      single e pr d cs delta vk it = .error err) ∨
    ∃ m v, itemResult e pr d cs delta vk it = .ok m ∧ Holds e.toCoords pr m v ∧
      single e pr d cs delta vk it = if v = 0 then .ok () else .error .constraintSystemFailure := by
  unfold itemResult single verifyItem verifySingle
  rcases hg : verifyGuard e pr d cs delta vk it.instances MSM.new (R.init it.proof)
    with err | ⟨gd, s'⟩
  · rw [bind_of_err hg, bind_of_err hg]
    exact .inl ⟨err, rfl, rfl⟩
  · rw [bind_of_ok hg, bind_of_ok hg]
    obtain ⟨hu, v, hv⟩ := verifyGuard_good he hpr.ok d cs delta vk it.instances _ _ _ hg
    rcases Ipa.useChallenges_spec hpr gd hu hv with ⟨-, h⟩ | ⟨m, h, hm⟩
    · rw [h]; exact .inl ⟨.panic, rfl, rfl⟩
    · rw [h]
      refine .inr ⟨m, _, rfl, hm, ?_⟩
      have h1 : (panics (some m) : R F (MSM F K)) s' = .ok (m, s') := rfl
      rw [bind_of_ok h1, eval_spec he.coords_valid hpr.ok hm]
      have h2 : (panics (some (decide (v + gd.negC • dot (Ipa.sOf gd.u) pr.g = 0))) : R F Bool) s'
        = .ok (decide (v + gd.negC • dot (Ipa.sOf gd.u) pr.g = 0), s') := rfl
      rw [bind_of_ok h2]
      by_cases h0 : v + gd.negC • dot (Ipa.sOf gd.u) pr.g = 0
      · rw [check_true _ (by simpa using h0), if_pos h0]; rfl
      · rw [check_false _ (by simpa using h0), if_neg h0]; rfl

/-- The items that lead to an accumulator denote points, which vanish exactly for the accepted
ones. -/
theorem items_denote (he : e.Valid) (hpr : Ipa.ParamsOk pr) (items : List (Item F))
    (hok : ∀ it ∈ items, ∀ err, itemResult e pr d cs delta vk it ≠ .error err) :
    ∃ vs, Denotes e.toCoords pr (items.map (itemResult e pr d cs delta vk)) vs ∧
      ((∀ v ∈ vs, v = 0) ↔ ∀ it ∈ items, single e pr d cs delta vk it = .ok ()) := by
  induction items with
  | nil => exact ⟨[], .nil, by simp⟩
  | cons it items ih =>
    obtain ⟨vs, h1, h2⟩ := ih fun it hit => hok it (List.mem_cons_of_mem _ hit)
    rcases item_single (d := d) (cs := cs) (delta := delta) (vk := vk) he hpr it
      with ⟨err, h, -⟩ | ⟨m, v, h3, h4, h5⟩
    · exact absurd h (hok it List.mem_cons_self err)
    · refine ⟨v :: vs, ?_, ?_⟩
      · rw [List.map_cons, h3]; exact .cons h4 h1
      · rw [List.forall_mem_cons, List.forall_mem_cons, h2, h5]
        refine and_congr_left fun _ => ?_
        by_cases h0 : v = 0 <;> simp [h0]

/-- `finalize` returns for every schedule of the items and all scalars. -/
theorem finalize_total (items : List (Item F)) (s : Shape) (hs : s.items = items.length)
    (ρ : Scalars F s) : ∃ result, Finalize e pr d cs delta vk items s ρ result := by
  obtain ⟨r, h⟩ := Runs.total pr s ρ (items.map (itemResult e pr d cs delta vk)) (by simp [hs])
  exact ⟨_, r, h, rfl⟩

/-- **C23**, valid batches: if `verify_proof` accepts every proof on its own, `finalize` returns
`true`, whatever the schedule and the random scalars. -/
theorem batch_accepts (he : e.Valid) (hpr : Ipa.ParamsOk pr) (items : List (Item F))
    (hall : ∀ it ∈ items, single e pr d cs delta vk it = .ok ()) (s : Shape) (ρ : Scalars F s)
    (result : Option Bool) (h : Finalize e pr d cs delta vk items s ρ result) :
    result = some true := by
  obtain ⟨r, h1, rfl⟩ := h
  obtain ⟨vs, h2, h3⟩ := items_denote (d := d) (cs := cs) (delta := delta) (vk := vk) he hpr items
    (by
      intro it hit err herr
      rcases item_single (d := d) (cs := cs) (delta := delta) (vk := vk) he hpr it
        with ⟨err, -, h⟩ | ⟨m, v, h3, -, -⟩
      · rw [hall it hit] at h; cases h
      · rw [h3] at herr; cases herr)
  obtain ⟨m, rfl, h4⟩ := h1.denotes he.coords_valid h2
  rw [comb_zero s ρ vs (h3.2 hall)] at h4
  dsimp only
  rw [eval_spec he.coords_valid hpr.ok h4]
  simp

/-- **C23**, malformed proofs: if `verify_proof` rejects one of the proofs before the final check
and panics on none, `finalize` returns `false`, whatever the schedule and the random scalars. -/
theorem batch_rejects (he : e.Valid) (hpr : Ipa.ParamsOk pr) (items : List (Item F))
    (hpanic : ∀ it ∈ items, single e pr d cs delta vk it ≠ .error .panic)
    {it : Item F} (hit : it ∈ items) {err : Err} (herr : single e pr d cs delta vk it = .error err)
    (hne : err ≠ .constraintSystemFailure) (s : Shape) (ρ : Scalars F s)
    (result : Option Bool) (h : Finalize e pr d cs delta vk items s ρ result) :
    result = some false := by
  obtain ⟨r, h1, rfl⟩ := h
  have hbad : itemResult e pr d cs delta vk it = .error err := by
    rcases item_single (d := d) (cs := cs) (delta := delta) (vk := vk) he hpr it
      with ⟨err', h2, h3⟩ | ⟨m, v, -, -, h3⟩
    · rw [herr] at h3; cases h3; exact h2
    · rw [herr] at h3
      split_ifs at h3
      · cases h3; exact absurd rfl hne
  obtain ⟨err', rfl⟩ := h1.failed (err := err) (List.mem_map.2 ⟨it, hit, hbad⟩)
  have h4 := (h1.error (cv := e.toCoords) he.coords_valid (by
    intro m hm
    obtain ⟨it', -, h2⟩ := List.mem_map.1 hm
    rcases item_single (d := d) (cs := cs) (delta := delta) (vk := vk) he hpr it'
      with ⟨err', h3, -⟩ | ⟨m', v, h3, h4, -⟩
    · rw [h2] at h3; cases h3
    · rw [h2] at h3; cases h3; exact ⟨v, h4⟩)).1 err' rfl
  obtain ⟨it', hit', h2⟩ := List.mem_map.1 h4
  have : err' ≠ .panic := by
    rintro rfl
    rcases item_single (d := d) (cs := cs) (delta := delta) (vk := vk) he hpr it'
      with ⟨err', h3, h5⟩ | ⟨m', v, h3, -, -⟩
    · rw [h2] at h3; cases h3; exact hpanic it' hit' h5
    · rw [h2] at h3; cases h3
  cases err' <;> first | rfl | exact absurd rfl this

open Classical in
/-- **C23**, invalid batches: if `verify_proof` does not accept one of the proofs, then for every
schedule at most a fraction `draws / |F|` of the choices of random scalars let `finalize` return
`true`, where `draws` is the number of scalars drawn. -/
theorem batch_sound [Fintype F] (he : e.Valid) (hpr : Ipa.ParamsOk pr) (items : List (Item F))
    {it : Item F} (hit : it ∈ items) (hbad : single e pr d cs delta vk it ≠ .ok ()) (s : Shape) :
    Fintype.card {ρ : Scalars F s // Finalize e pr d cs delta vk items s ρ (some true)}
        * Fintype.card F ≤ s.draws * Fintype.card (Scalars F s) := by
  by_cases hs : s.items = items.length
  swap
  · have : Fintype.card {ρ : Scalars F s // Finalize e pr d cs delta vk items s ρ (some true)} = 0 := by
      rw [Fintype.card_eq_zero_iff]
      refine ⟨fun ⟨ρ, r, h1, _⟩ => hs ?_⟩
      simpa using h1.length.symm
    rw [this, zero_mul]; exact Nat.zero_le _
  by_cases hok : ∀ it ∈ items, ∀ err, itemResult e pr d cs delta vk it ≠ .error err
  · obtain ⟨vs, h2, h3⟩ := items_denote (d := d) (cs := cs) (delta := delta) (vk := vk) he hpr items
      hok
    have hnz : ∃ v ∈ vs, v ≠ 0 := by
      by_contra hz
      push Not at hz
      exact hbad (h3.1 hz it hit)
    have hlen : vs.length = s.items := by rw [h2.length, List.length_map, hs]
    have key : ∀ ρ, Finalize e pr d cs delta vk items s ρ (some true) → comb s ρ vs = 0 := ?_
    · refine le_trans (Nat.mul_le_mul_right _ ?_) (card_comb s vs hlen hnz)
      refine @Fintype.card_le_of_injective _ _ _ (_) (fun ρ => ⟨ρ.1, key ρ.1 ρ.2⟩) fun a b hab => ?_
      exact Subtype.ext (Subtype.mk.inj hab)
    rintro ρ ⟨r, h4, h5⟩
    obtain ⟨m, rfl, h6⟩ := h4.denotes he.coords_valid h2
    dsimp only at h5
    rw [eval_spec he.coords_valid hpr.ok h6] at h5
    simpa using h5
  · push Not at hok
    obtain ⟨it', hit', err, herr⟩ := hok
    have : Fintype.card {ρ : Scalars F s // Finalize e pr d cs delta vk items s ρ (some true)} = 0 := by
      rw [Fintype.card_eq_zero_iff]
      refine ⟨fun ⟨ρ, r, h1, h2⟩ => ?_⟩
      obtain ⟨err', rfl⟩ := h1.failed (err := err) (List.mem_map.2 ⟨it', hit', herr⟩)
      cases err' <;> simp at h2
    rw [this, zero_mul]; exact Nat.zero_le _

end

/-! ## Example: a batch with the proof of `Protocol.exRun`, twice; and with an empty proof -/

open Verif.Toy Verif.Plonk in
example : ∃ d pr vk proof, Ipa.ParamsOk pr ∧
    (∀ (r r' r'' : G) result, Finalize (enc sumHash uniform) pr d exCs 5 vk
      [⟨[[]], proof⟩, ⟨[[]], proof⟩] (.combine (.item .start) (.item .start))
      (((), r), ((), r'), r'') result → result = some true) ∧
    (∀ (r r' : G) result, Finalize (enc sumHash uniform) pr d exCs 5 vk
      [⟨[[]], proof⟩, ⟨[[]], []⟩] (.item (.item .start)) (((), r), r') result →
      result = some false) := by
  obtain ⟨d, pr, pk, vk, st', hd, hpr, -, -, -, h⟩ := exRun_verifies
  obtain ⟨hs, hk⟩ := setup_of_new (threads := 2) (by decide) (by decide) consts97_valid hd hpr
  have hok : single (enc sumHash uniform) pr d exCs 5 vk ⟨[[]], st'.out⟩ = .ok () := by
    have := h []
    rw [List.append_nil] at this
    unfold single
    rw [this]; rfl
  have hbad : single (enc sumHash uniform) pr d exCs 5 vk ⟨[[]], []⟩ = .error .io := by
    rfl
  refine ⟨d, pr, vk, st'.out, hs.params, ?_, ?_⟩
  · intro r r' r'' result hf
    refine batch_accepts (enc_valid _ _) hs.params _ ?_ _ _ _ hf
    simpa using hok
  · intro r r' result hf
    refine batch_rejects (enc_valid _ _) hs.params _ ?_ (it := ⟨[[]], []⟩) (by simp) hbad (by decide)
      _ _ _ hf
    intro it hit
    simp only [List.mem_cons, List.not_mem_nil, or_false] at hit
    rcases hit with rfl | rfl
    · rw [hok]; simp
    · rw [hbad]; simp

open Verif.Toy Verif.Plonk Classical in
/-- `batch_sound`: with the empty proof in a batch of two, at most three in 97 of the draws accept. -/
example : ∃ d pr vk proof, single (enc sumHash uniform) pr d exCs 5 vk ⟨[[]], proof⟩ = .ok () ∧
    Fintype.card {ρ : Scalars (ZMod 97) (.combine (.item .start) (.item .start)) //
        Finalize (enc sumHash uniform) pr d exCs 5 vk [⟨[[]], proof⟩, ⟨[[]], []⟩]
          (.combine (.item .start) (.item .start)) ρ (some true)} * 97 ≤
      3 * Fintype.card (Scalars (ZMod 97) (.combine (.item .start) (.item .start))) := by
  obtain ⟨d, pr, pk, vk, st', hd, hpr, -, -, -, h⟩ := exRun_verifies
  obtain ⟨hs, hk⟩ := setup_of_new (threads := 2) (by decide) (by decide) consts97_valid hd hpr
  refine ⟨d, pr, vk, st'.out, ?_, ?_⟩
  · have := h []
    rw [List.append_nil] at this
    unfold single
    rw [this]; rfl
  · have := batch_sound (d := d) (cs := exCs) (delta := 5) (vk := vk) (enc_valid sumHash uniform)
      hs.params [⟨[[]], st'.out⟩, ⟨[[]], []⟩] (it := ⟨[[]], []⟩) (by simp)
      (by rw [show single (enc sumHash uniform) pr d exCs 5 vk ⟨[[]], []⟩ = .error .io from rfl]; simp)
      (.combine (.item .start) (.item .start))
    rw [ZMod.card, show (Shape.combine (.item .start) (.item .start)).draws = 3 from rfl] at this
    refine le_trans (le_of_eq ?_) this
    congr!

end Verif.Batch
