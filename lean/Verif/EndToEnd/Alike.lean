import Mathlib.Data.Option.Basic
import Verif.Floor.Erase
import Verif.EndToEnd.Makes

/-!
# The calls of the Poseidon gadget do not depend on the message (C82)

Two runs of a program of `Verif.Region` on inputs in the same cells with different values.
-/

namespace Verif.EndToEnd

open Verif.Region

variable {C S F α β : Type}

/-- The same call, but for the value of a witness. -/
def SameOp : Op C S F → Op C S F → Prop
  | .advice c _, .advice c' _ => c = c'
  | a, b => a = b

theorem SameOp.refl (a : Op C S F) : SameOp a a := by
  cases a <;> simp [SameOp]

/-- Two programs both fail, or make the same calls but for the values of witnesses and have results
related by `Q`. -/
def Alike (x y : M C S F α) (Q : α → α → Prop) : Prop :=
  ∀ n, (x n = none ∧ y n = none) ∨ ∃ a b n' o o', x n = some (a, n', o) ∧ y n = some (b, n', o') ∧
    Q a b ∧ List.Forall₂ SameOp o o'

theorem Alike.mono {x y : M C S F α} {Q Q' : α → α → Prop} (h : Alike x y Q)
    (hQ : ∀ a b, Q a b → Q' a b) : Alike x y Q' := by
  intro n
  rcases h n with h | ⟨a, b, n', o, o', h1, h2, h3, h4⟩
  · exact .inl h
  · exact .inr ⟨a, b, n', o, o', h1, h2, hQ _ _ h3, h4⟩

theorem Alike.pure {a b : α} {Q : α → α → Prop} (h : Q a b) :
    Alike (Pure.pure a : M C S F α) (Pure.pure b) Q := fun n =>
  .inr ⟨a, b, n, [], [], rfl, rfl, h, .nil⟩

theorem Alike.bind {x y : M C S F α} {f g : α → M C S F β} {Q : α → α → Prop} {Q' : β → β → Prop}
    (h : Alike x y Q) (hf : ∀ a b, Q a b → Alike (f a) (g b) Q') :
    Alike (x >>= f) (y >>= g) Q' := by
  intro n
  simp only [bind_apply]
  rcases h n with ⟨h1, h2⟩ | ⟨a, b, n', o, o', h1, h2, h3, h4⟩
  · simp [h1, h2]
  · rcases hf a b h3 n' with ⟨h5, h6⟩ | ⟨c, d, n'', p, p', h5, h6, h7, h8⟩
    · simp [h1, h2, h5, h6]
    · right
      exact ⟨c, d, n'', o ++ p, o' ++ p', by simp [h1, h5], by simp [h2, h6], h7,
        List.rel_append h4 h8⟩

theorem Alike.emit {a b : Op C S F} (h : SameOp a b) :
    Alike (Region.emit a) (Region.emit b) fun _ _ => True := fun n =>
  .inr ⟨(), (), n, [a], [b], rfl, rfl, trivial, .cons h .nil⟩

theorem Alike.unwrap {x y : Option α} {Q : α → α → Prop} (h : Option.Rel Q x y) :
    Alike (Region.unwrap x : M C S F α) (Region.unwrap y) Q := by
  intro n
  cases h with
  | none => exact .inl ⟨rfl, rfl⟩
  | some h => exact .inr ⟨_, _, n, [], [], rfl, rfl, h, .nil⟩

theorem Alike.assignRegion {f g : ℕ → M C S F α} {Q : α → α → Prop}
    (h : ∀ reg, Alike (f reg) (g reg) Q) : Alike (Region.assignRegion f) (Region.assignRegion g) Q :=
  fun n => h n (n + 1)

theorem Alike.foldlM {γ : Type} {R : β → β → Prop} {f g : α → β → M C S F α} {Q : α → α → Prop}
    {l l' : List β} (hl : List.Forall₂ R l l')
    (h : ∀ a a' b b', Q a a' → R b b' → Alike (f a b) (g a' b') Q) :
    ∀ a a', Q a a' → Alike (l.foldlM f a) (l'.foldlM g a') Q := by
  induction hl with
  | nil => intro a a' ha; exact .pure ha
  | cons hb _ ih =>
    intro a a' ha
    rw [List.foldlM_cons, List.foldlM_cons]
    exact .bind (h _ _ _ _ ha hb) ih

theorem Alike.tabulate : ∀ {n : ℕ} {f g : Fin n → M C S F α} {Q : α → α → Prop},
    (∀ i, Alike (f i) (g i) Q) →
      Alike (Region.tabulate n f) (Region.tabulate n g) fun a b => ∀ i, Q (a i) (b i)
  | 0, _, _, _, _ => .pure fun i => i.elim0
  | n + 1, f, g, Q, h => by
    unfold Region.tabulate
    refine .bind (h 0) fun a b hab => .bind (Alike.tabulate fun i => h i.succ) fun c d hcd =>
      .pure fun i => ?_
    refine Fin.cases ?_ (fun j => ?_) i
    · exact hab
    · exact hcd j

/-- Assigned cells that are the same cell. -/
def SameCell (a b : ACell C F) : Prop := a.cell = b.cell

theorem Alike.assignAdvice {reg off : ℕ} {c : C} {v w : F} :
    Alike (Region.assignAdvice (S := S) reg c off v) (Region.assignAdvice reg c off w) SameCell :=
  .bind (.emit rfl) fun _ _ _ => .pure rfl

theorem Alike.assignFixed {reg off : ℕ} {c : C} {v : F} :
    Alike (Region.assignFixed (S := S) reg c off v) (Region.assignFixed reg c off v) SameCell :=
  .bind (.emit rfl) fun _ _ _ => .pure rfl

theorem Alike.constrainEqual {a b a' b' : Cell C} (ha : a = a') (hb : b = b') :
    Alike (Region.constrainEqual a b : M C S F Unit) (Region.constrainEqual a' b')
      fun _ _ => True :=
  .emit (by rw [ha, hb]; exact .refl _)

theorem Alike.enable {s : S} {reg off : ℕ} :
    Alike (Region.enable s reg off : M C S F Unit) (Region.enable s reg off) fun _ _ => True :=
  .emit (.refl _)

theorem Alike.assignAdviceFromConstant {reg off : ℕ} {c : C} {v : F} :
    Alike (Region.assignAdviceFromConstant (S := S) reg c off v)
      (Region.assignAdviceFromConstant reg c off v) SameCell :=
  .bind .assignAdvice fun a b h => .bind (.emit (by rw [h]; exact .refl _)) fun _ _ _ => .pure h

theorem Alike.copyAdvice {a b : ACell C F} {reg off : ℕ} {c : C} (h : SameCell a b) :
    Alike (a.copyAdvice (S := S) reg c off) (b.copyAdvice reg c off) SameCell :=
  .bind .assignAdvice fun _ _ h' => .bind (.constrainEqual h' h) fun _ _ _ => .pure h'

/-! ### The Poseidon gadget -/

section

open Verif.Pow5 Verif.Poseidon

variable [Field F] {r : ℕ} {cfg : Config C S r} {P : Spec F (r + 1)}

/-- Words of the state in the same cells. -/
def SameWords (a b : Words C F r) : Prop := ∀ i, SameCell (a i) (b i)

theorem rel_refl {T : Type} (x : Option T) : Option.Rel (fun a b => a = b) x x := by
  cases x
  · exact .none
  · exact .some rfl

theorem alike_round {reg rd off : ℕ} {gate : S} {f g : M C S F (State F (r + 1))}
    (hf : Alike f g fun _ _ => True) :
    Alike (round cfg P reg rd off gate f) (round cfg P reg rd off gate g) SameWords := by
  unfold round
  refine .bind .enable fun _ _ _ => .bind (.unwrap (rel_refl _)) ?_
  rintro rc _ rfl
  exact .bind (.tabulate fun i => .assignFixed) fun _ _ _ => .bind hf fun _ _ _ =>
    .tabulate fun i => .assignAdvice

theorem alike_fullRound {reg rd off : ℕ} {st st' : Words C F r} :
    Alike (fullRound cfg P reg rd off st) (fullRound cfg P reg rd off st') SameWords :=
  alike_round (.bind (.unwrap (rel_refl _)) fun _ _ _ => .pure trivial)

theorem alike_partialRound {reg rd off : ℕ} {st st' : Words C F r} :
    Alike (partialRound cfg P reg rd off st) (partialRound cfg P reg rd off st') SameWords := by
  refine alike_round (.bind (.unwrap (rel_refl _)) fun _ _ _ => .bind .assignAdvice fun _ _ _ =>
    .bind (.unwrap (rel_refl _)) ?_)
  rintro rc _ rfl
  exact .bind (.tabulate fun i => .assignFixed) fun _ _ _ => .pure trivial

theorem alike_load {reg : ℕ} {st st' : Words C F r} (h : SameWords st st') :
    Alike (load cfg reg st) (load cfg reg st') SameWords :=
  .tabulate fun i => .copyAdvice (h i)

theorem forall₂_refl {T : Type} (l : List T) : List.Forall₂ (fun a b => a = b) l l := by
  induction l with
  | nil => exact .nil
  | cons a l ih => exact .cons rfl ih

theorem alike_rounds {f : ℕ → Words C F r → M C S F (Words C F r)} (l : List ℕ)
    (h : ∀ rd st st', SameWords st st' → Alike (f rd st) (f rd st') SameWords)
    {st st' : Words C F r} (hs : SameWords st st') :
    Alike (l.foldlM (fun st rd => f rd st) st) (l.foldlM (fun st rd => f rd st) st') SameWords := by
  refine Alike.foldlM (γ := ℕ) (forall₂_refl l) ?_ _ _ hs
  rintro a a' b _ h' rfl
  exact h b a a' h'

theorem alike_permute {st st' : Words C F r} (h : SameWords st st') :
    Alike (Pow5.permute cfg P st) (Pow5.permute cfg P st') SameWords :=
  .assignRegion fun reg => .bind (alike_load h) fun _ _ h =>
    .bind (alike_rounds (f := fun rd st => Pow5.fullRound cfg P reg rd rd st) _
      (fun _ _ _ _ => alike_fullRound) h) fun _ _ h =>
    .bind (alike_rounds (f := fun rd st => Pow5.partialRound cfg P reg (P.fullRounds / 2 + 2 * rd)
      (P.fullRounds / 2 + rd) st) _ (fun _ _ _ _ => alike_partialRound) h) fun _ _ h =>
    alike_rounds (f := fun rd st => Pow5.fullRound cfg P reg
      (P.fullRounds / 2 + 2 * (P.partialRounds / 2) + rd)
      (P.fullRounds / 2 + P.partialRounds / 2 + rd) st) _ (fun _ _ _ _ => alike_fullRound) h

theorem alike_initialState {cap : F} :
    Alike (initialState cfg cap) (initialState cfg cap) SameWords :=
  .assignRegion fun _ => .tabulate fun i => .assignAdviceFromConstant

/-- The same cell of the message, or the same padding. -/
def SameWord : PaddedWord C F → PaddedWord C F → Prop
  | .message a, .message b => SameCell a b
  | .padding v, .padding w => v = w
  | _, _ => False

/-- Buffers with the same words. -/
abbrev SameBuf (l l' : List (Option (PaddedWord C F))) : Prop :=
  List.Forall₂ (Option.Rel SameWord) l l'

theorem alike_loadInput {reg : ℕ} {i : Fin r} {w w' : Option (PaddedWord C F)}
    (h : Option.Rel SameWord w w') : Alike (loadInput cfg reg i w) (loadInput cfg reg i w') SameCell := by
  cases h with
  | none => exact .unwrap .none
  | @some a b h =>
    rcases a with a | v <;> rcases b with b | w <;> simp only [SameWord] at h
    · exact .bind .assignAdvice fun _ _ h' => .bind (.constrainEqual h h') fun _ _ _ => .pure h'
    · subst h
      exact .bind .assignFixed fun _ _ h => .bind .assignAdvice fun _ _ h' =>
        .bind (.constrainEqual h h') fun _ _ _ => .pure h'

theorem getD_rel {T : Type} {R : T → T → Prop} {l l' : List (Option T)}
    (h : List.Forall₂ (Option.Rel R) l l') (i : ℕ) :
    Option.Rel R (l.getD i Option.none) (l'.getD i Option.none) := by
  induction h generalizing i with
  | nil => exact .none
  | cons h _ ih =>
    cases i with
    | zero => exact h
    | succ i => exact ih i

theorem alike_addInput {st st' : Words C F r} {l l' : List (Option (PaddedWord C F))}
    (h : SameWords st st') (hl : SameBuf l l') :
    Alike (Pow5.addInput cfg st l) (Pow5.addInput cfg st' l') SameWords :=
  .assignRegion fun _ => .bind .enable fun _ _ _ => .bind (alike_load h) fun _ _ _ =>
    .bind (.tabulate fun i => alike_loadInput (getD_rel hl i)) fun _ _ _ =>
    .tabulate fun i => .assignAdvice

theorem getOutput_rel {st st' : Words C F r} (h : SameWords st st') :
    List.Forall₂ (Option.Rel SameCell) (getOutput st) (getOutput st') := by
  unfold getOutput
  rw [List.forall₂_iff_get]
  refine ⟨by simp, fun i h1 h2 => ?_⟩
  simp only [List.get_eq_getElem, List.getElem_ofFn]
  exact .some (h _)

theorem alike_sponge {st st' : Words C F r} {l l' : Option (List (Option (PaddedWord C F)))}
    (h : SameWords st st') (hl : Option.Rel SameBuf l l') :
    Alike (Pow5.poseidonSponge cfg P st l) (Pow5.poseidonSponge cfg P st' l') fun a b =>
      SameWords a.1 b.1 ∧ List.Forall₂ (Option.Rel SameCell) a.2 b.2 := by
  unfold Pow5.poseidonSponge
  have hout : ∀ st st' : Words C F r, SameWords st st' →
      Alike (do let state ← Pow5.permute cfg P st; pure (state, getOutput state))
        (do let state ← Pow5.permute cfg P st'; pure (state, getOutput state)) fun a b =>
      SameWords a.1 b.1 ∧ List.Forall₂ (Option.Rel SameCell) a.2 b.2 := fun _ _ h =>
    .bind (alike_permute h) fun _ _ h => .pure ⟨h, getOutput_rel h⟩
  cases hl with
  | none => exact .bind (.pure h) hout
  | some hl => exact .bind (alike_addInput h hl) hout

theorem absorbBuf_rel {T : Type} {R : T → T → Prop} {v w : T} (hv : R v w) {l l' : List (Option T)}
    (h : List.Forall₂ (Option.Rel R) l l') :
    Option.Rel (List.Forall₂ (Option.Rel R)) (absorbBuf l v) (absorbBuf l' w) := by
  induction h with
  | nil => exact .none
  | @cons a b l l' h ht ih =>
    cases h with
    | none => exact .some (.cons (.some hv) ht)
    | some h =>
      simp only [absorbBuf]
      generalize absorbBuf l v = x at ih
      generalize absorbBuf l' w = y at ih
      cases ih with
      | none => exact .none
      | some ih => exact .some (.cons (.some h) ih)

theorem squeezeBuf_rel {T : Type} {R : T → T → Prop} {l l' : List (Option T)}
    (h : List.Forall₂ (Option.Rel R) l l') :
    Option.Rel (fun a b => R a.1 b.1) (squeezeBuf l) (squeezeBuf l') := by
  induction h with
  | nil => exact .none
  | @cons a b l l' h ht ih =>
    cases h with
    | some h => exact .some h
    | none =>
      simp only [squeezeBuf]
      generalize squeezeBuf l = x at ih
      generalize squeezeBuf l' = y at ih
      cases ih with
      | none => exact .none
      | some ih => exact .some ih

/-- Sponges that have absorbed the same words. -/
def SameAbsorb (a b : Absorb C F r) : Prop := SameWords a.state b.state ∧ SameBuf a.mode b.mode

theorem replicate_rel {T : Type} {R : T → T → Prop} (n : ℕ) :
    List.Forall₂ (Option.Rel R) (List.replicate n Option.none) (List.replicate n Option.none) := by
  induction n with
  | zero => exact .nil
  | succ n ih => exact .cons .none ih

theorem alike_absorb {s s' : Absorb C F r} {v w : PaddedWord C F} (hs : SameAbsorb s s')
    (hv : SameWord v w) :
    Alike (Absorb.absorb cfg P s v) (Absorb.absorb cfg P s' w) SameAbsorb := by
  unfold Absorb.absorb
  have h := absorbBuf_rel hv hs.2
  generalize absorbBuf s.mode v = x at h
  generalize absorbBuf s'.mode w = y at h
  cases h with
  | none =>
    exact .bind (alike_sponge hs.1 (.some hs.2)) fun _ _ h =>
      .bind (.unwrap (absorbBuf_rel hv (replicate_rel r))) fun _ _ h' => .pure ⟨h.1, h'⟩
  | some h => exact .pure ⟨hs.1, h⟩

/-- Two runs of the hash gadget on messages in the same cells make the same calls but for the values
of witnesses, and have their results in the same cell. -/
theorem alike_hash {msg msg' : List (ACell C F)} (h : List.Forall₂ SameCell msg msg') :
    Alike (Pow5.hash cfg P msg) (Pow5.hash cfg P msg') SameCell := by
  unfold Pow5.hash
  rw [← h.length_eq]
  refine .bind (Q := SameAbsorb) (.bind alike_initialState fun _ _ h => .pure ⟨h, replicate_rel r⟩)
    fun s s' hs => .bind (.unwrap (rel_refl _)) ?_
  rintro pad _ rfl
  refine .bind (Alike.foldlM (γ := ℕ) (R := SameWord) (List.rel_append ?_ ?_)
    (fun _ _ _ _ h h' => alike_absorb h h') _ _ hs) fun s s' hs => .bind
    (Q := fun a b : Squeeze C F r => SameWords a.state b.state ∧
      List.Forall₂ (Option.Rel SameCell) a.mode b.mode)
    (.bind (alike_sponge hs.1 (.some hs.2)) fun _ _ h => .pure h) fun q q' hq =>
    .bind (Q := fun a b => SameCell a.1 b.1) ?_ fun _ _ h => .pure h
  · rw [List.forall₂_map_left_iff, List.forall₂_map_right_iff]
    exact h
  · rw [List.forall₂_map_left_iff, List.forall₂_map_right_iff]
    exact forall₂_refl pad
  · unfold Squeeze.squeeze
    have h := squeezeBuf_rel hq.2
    generalize squeezeBuf q.mode = x at h
    generalize squeezeBuf q'.mode = y at h
    cases h with
    | none =>
      exact .bind (alike_sponge hq.1 .none) fun _ _ h =>
        .bind (.unwrap (squeezeBuf_rel h.2)) fun _ _ h => .pure h
    | some h => exact .pure h

end

end Verif.EndToEnd
