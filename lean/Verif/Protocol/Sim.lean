import Verif.Protocol.Model
import Verif.Transcript.Sim
import Verif.Ipa.Props
import Verif.Multiopen.Props

/-!
# Loops of prover and verifier run side by side
-/

namespace Verif.Protocol

open Verif.Msm Verif.Transcript
open Verif.Plonk (mapS)

variable {F K A α β β' γ δ ι κ S : Type}
variable {Good : List F → Prop} {tr : List F}

theorem Grows.throw (err : Err) : Grows (throw err : W F α) := by
  intro tr abs out a st' h; cases h

theorem Grows.mapErr {w : W F α} (err : Err) (h : Grows w) : Grows (mapErr err w) := by
  intro tr abs out a st' hw
  unfold Transcript.mapErr at hw
  rcases hx : w ⟨abs, out, tr⟩ with er | ⟨b, s⟩
  · rw [hx] at hw; cases er <;> cases hw
  · rw [hx] at hw; cases hw; exact h _ _ _ _ _ hx

theorem Grows.ite {c : Prop} [Decidable c] {w w' : W F α} (h : Grows w) (h' : Grows w') :
    Grows (if c then w else w') := by
  split_ifs <;> assumption

theorem Grows.mapSW {f : α → S → W F (β × S)} (hf : ∀ a s, Grows (f a s)) (l : List α) (s : S) :
    Grows (mapSW f l s) := by
  induction l generalizing s with
  | nil => exact Grows.pure _
  | cons a l ih =>
    exact (hf a s).bind fun p => (ih p.2).bind fun q => Grows.pure _

theorem Grows.check (c : Prop) [Decidable c] (err : Err) : Grows (check c err : W F Unit) :=
  Grows.ite (Grows.pure _) (Grows.throw _)

theorem check_true {σ : Type} {c : Prop} [Decidable c] (err : Err) (h : c) :
    (check c err : StateT σ (Except Err) Unit) = pure () := if_pos h

theorem check_ok {σ : Type} {c : Prop} [Decidable c] {err : Err} {s s' : σ} {u : Unit}
    (h : (check c err : StateT σ (Except Err) Unit) s = .ok (u, s')) : c ∧ s' = s := by
  unfold check at h
  split_ifs at h with hc
  · cases h; exact ⟨hc, rfl⟩
  · cases h

/-- Side conditions `Grows`. -/
macro "grows" : tactic => `(tactic| repeat' (first
  | assumption
  | exact Grows.pure _
  | exact Grows.panics _
  | exact Grows.fails _ _
  | exact Grows.squeeze _
  | exact Grows.writePoint _ _
  | exact Grows.writeScalar _ _
  | exact Grows.commonPoint _ _
  | exact Grows.commonScalar _ _
  | exact Grows.throw _
  | exact Grows.check _ _
  | exact Multiopen.createProof_grows _ _ _ _ _ _ _
  | apply Grows.mapErr
  | apply Grows.mapM
  | apply Grows.mapSW
  | apply Grows.ite
  | apply Grows.bind
  | intro _))

theorem Sim.bind' (hG : Closed Good) {w : W F α} {r : R F β} {f : α → W F γ} {g : β → R F δ}
    {Q : α → β → List F → Prop} {Q' : γ → δ → List F → Prop} (h : Sim Good tr w r Q)
    (hgrow : ∀ a, Grows (f a))
    (hf : ∀ a b tr', tr <:+ tr' → Q a b tr' → Sim Good tr' (f a) (g b) Q') :
    Sim Good tr (w >>= f) (r >>= g) Q' :=
  h.bind hG (fun a tr' abs out c st' => hgrow a tr' abs out c st') hf

/-- A fact that follows from the success of the prover may be used. -/
theorem Sim.of_ok {φ : Prop} {w : W F α} {r : R F β} {Q : α → β → List F → Prop} (hgrow : Grows w)
    (h1 : ∀ s a s', w s = .ok (a, s') → φ) (h2 : φ → Sim Good tr w r Q) : Sim Good tr w r Q where
  grows := hgrow tr
  run abs out a st' hw hg := (h2 (h1 _ _ _ hw)).run abs out a st' hw hg

/-- The prover does nothing on its transcript where the verifier does something pure. -/
theorem Sim.pureW {a : α} {f : α → W F γ} {r : R F δ} {Q : γ → δ → List F → Prop}
    (h : Sim Good tr (f a) r Q) : Sim Good tr ((Pure.pure a : W F α) >>= f) r Q := h

/-- The prover forgets a result. -/
theorem Sim.thenW {w : W F α} {r : R F β} {Q : α → β → List F → Prop} (h : Sim Good tr w r Q)
    (c : γ) : Sim Good tr (w >>= fun _ => Pure.pure c) r fun c' b t => c' = c ∧ ∃ a, Q a b t where
  grows abs out a st' hw := by
    obtain ⟨a, s₁, h1, h2⟩ := bind_ok hw
    cases h2
    exact h.grows _ _ _ _ h1
  run abs out a st' hw hg := by
    obtain ⟨a, s₁, h1, h2⟩ := bind_ok hw
    cases h2
    obtain ⟨p, b, h3, h4, h5⟩ := h.run _ _ _ _ h1 hg
    exact ⟨p, b, h3, h4, rfl, a, h5⟩

theorem mapM_ok {σ : Type} {f : ι → StateT σ (Except Err) α} {l : List ι} {s s' : σ} {as : List α}
    (h : l.mapM f s = .ok (as, s')) : ∀ i ∈ l, ∃ s₁ a s₂, f i s₁ = .ok (a, s₂) := by
  induction l generalizing s s' as with
  | nil => simp
  | cons i l ih =>
    rw [List.mapM_cons] at h
    obtain ⟨a, s₁, h1, h2⟩ := bind_ok h
    obtain ⟨as', s₂, h3, h4⟩ := bind_ok h2
    intro j hj
    rcases List.mem_cons.1 hj with rfl | hj
    · exact ⟨_, _, _, h1⟩
    · exact ih h3 j hj

theorem mapM_eq_pure {σ : Type} {f : ι → StateT σ (Except Err) α} (l : List ι) (g : ι → α)
    (h : ∀ i ∈ l, f i = pure (g i)) : l.mapM f = pure (l.map g) := by
  induction l with
  | nil => rfl
  | cons i l ih =>
    rw [List.mapM_cons, h i (by simp), ih fun j hj => h j (by simp [hj])]
    rfl

theorem mapM_congr {σ : Type} {f g : ι → StateT σ (Except Err) α} (l : List ι)
    (h : ∀ i ∈ l, f i = g i) : l.mapM f = l.mapM g := by
  induction l with
  | nil => rfl
  | cons i l ih => rw [List.mapM_cons, List.mapM_cons, h i (by simp), ih fun j hj => h j (by simp [hj])]

theorem mapM_map {σ : Type} (f : κ → StateT σ (Except Err) α) (g : ι → κ) (l : List ι) :
    (l.map g).mapM f = l.mapM fun i => f (g i) := by
  induction l with
  | nil => rfl
  | cons i l ih => rw [List.map_cons, List.mapM_cons, List.mapM_cons, ih]

/-- Loops in which the results are known. -/
theorem Sim.loop (hG : Closed Good) (l : List ι) (m : List κ) (hlen : l.length = m.length)
    (f : ι → W F α) (g : κ → R F β) (ha : ι → α) (hb : ι → β) (hgrow : ∀ i, Grows (f i))
    (hf : ∀ p ∈ l.zip m, Sim Good tr (f p.1) (g p.2) fun a b t =>
      t = tr ∧ a = ha p.1 ∧ b = hb p.1) :
    Sim Good tr (l.mapM f) (m.mapM g) fun as bs t => t = tr ∧ as = l.map ha ∧ bs = l.map hb := by
  induction l generalizing m with
  | nil =>
    cases m with
    | nil => exact Sim.pure _ _ fun _ => ⟨rfl, rfl, rfl⟩
    | cons => simp at hlen
  | cons i l ih =>
    cases m with
    | nil => simp at hlen
    | cons k m =>
      rw [List.mapM_cons, List.mapM_cons]
      refine Sim.bind' hG (hf (i, k) (by simp)) (fun a => (Grows.mapM l f hgrow).bind
        fun b => Grows.pure _) ?_
      rintro a b t - ⟨rfl, rfl, rfl⟩
      refine Sim.bind' hG (ih m (by simpa using hlen) fun p hp => hf p (List.mem_cons_of_mem _ hp))
        (fun a => Grows.pure _) ?_
      rintro as bs t - ⟨rfl, rfl, rfl⟩
      exact Sim.pure _ _ fun _ => ⟨rfl, rfl, rfl⟩

/-- Loops in which the prover's results are known. -/
theorem Sim.loopW (hG : Closed Good) (l : List ι) (m : List κ) (hlen : l.length = m.length)
    (f : ι → W F α) (g : κ → R F β) (ha : ι → α) (hgrow : ∀ i, Grows (f i))
    (hf : ∀ p ∈ l.zip m, Sim Good tr (f p.1) (g p.2) fun a _ t => t = tr ∧ a = ha p.1) :
    Sim Good tr (l.mapM f) (m.mapM g) fun as _ t => t = tr ∧ as = l.map ha := by
  induction l generalizing m with
  | nil =>
    cases m with
    | nil => exact Sim.pure _ _ fun _ => ⟨rfl, rfl⟩
    | cons => simp at hlen
  | cons i l ih =>
    cases m with
    | nil => simp at hlen
    | cons k m =>
      rw [List.mapM_cons, List.mapM_cons]
      refine Sim.bind' hG (hf (i, k) (by simp)) (fun a => (Grows.mapM l f hgrow).bind
        fun b => Grows.pure _) ?_
      rintro a b t - ⟨rfl, rfl⟩
      refine Sim.bind' hG (ih m (by simpa using hlen) fun p hp => hf p (List.mem_cons_of_mem _ hp))
        (fun a => Grows.pure _) ?_
      rintro as bs t - ⟨rfl, rfl⟩
      exact Sim.pure _ _ fun _ => ⟨rfl, rfl⟩

theorem mem_zip_self {α : Type*} {l : List α} {p : α × α} (h : p ∈ l.zip l) : p.1 = p.2 := by
  obtain ⟨i, hi, rfl⟩ := List.mem_iff_getElem.1 h
  simp

/-- Loops threading the coset evaluator: `f` is the pure part of the loop, `π` forgets what `f`
does not return, `hb` is what the verifier reads. -/
theorem Sim.mapSW (hG : Closed Good) (l : List α) (m : List κ) (hlen : l.length = m.length)
    (f : α → S → Option (β × S)) (w : α → S → W F (β' × S)) (g : κ → R F δ) (π : β' → β)
    (hb : β' → δ) (Φ : β' → Prop) (hgrow : ∀ a s, Grows (w a s))
    (hf : ∀ q ∈ l.zip m, ∀ s, Sim Good tr (w q.1 s) (g q.2) fun p d t =>
      t = tr ∧ f q.1 s = some (π p.1, p.2) ∧ d = hb p.1 ∧ Φ p.1) (s : S) :
    Sim Good tr (mapSW w l s) (m.mapM g) fun p ds t =>
      t = tr ∧ mapS f l s = some (p.1.map π, p.2) ∧ ds = p.1.map hb ∧ ∀ b ∈ p.1, Φ b := by
  induction l generalizing m s with
  | nil =>
    cases m with
    | nil => exact Sim.pure _ _ fun _ => ⟨rfl, rfl, rfl, by simp⟩
    | cons => simp at hlen
  | cons a l ih =>
    cases m with
    | nil => simp at hlen
    | cons k m =>
      rw [List.mapM_cons]
      unfold Protocol.mapSW
      refine Sim.bind' hG (hf (a, k) (by simp) s) (fun p => (Grows.mapSW hgrow _ _).bind
        fun b => Grows.pure _) ?_
      rintro ⟨b, s₁⟩ d t - ⟨rfl, h1, rfl, h2⟩
      refine Sim.bind' hG (ih m (by simpa using hlen) (fun q hq => hf q (List.mem_cons_of_mem _ hq)) s₁)
        (fun a => Grows.pure _) ?_
      rintro ⟨bs, s₂⟩ ds t - ⟨rfl, h3, rfl, h4⟩
      refine Sim.pure _ _ fun _ => ⟨rfl, ?_, rfl, ?_⟩
      · dsimp only at h1 h3 ⊢
        unfold mapS
        rw [h1, Option.bind_some]
        dsimp only
        rw [h3]; rfl
      · intro b' hb'
        rcases List.mem_cons.1 hb' with rfl | hb'
        · exact h2
        · exact h4 b' hb'

theorem mapS_length {S : Type*} {α β : Type*} {f : α → S → Option (β × S)} {l : List α} {s : S}
    {r : List β × S} (h : mapS f l s = some r) : r.1.length = l.length := by
  induction l generalizing s r with
  | nil => cases h; rfl
  | cons a l ih =>
    unfold mapS at h
    obtain ⟨⟨b, s₁⟩, -, h⟩ := Option.bind_eq_some_iff.1 h
    obtain ⟨⟨bs, s₂⟩, h1, rfl⟩ := Option.map_eq_some_iff.1 h
    simp [ih h1]

end Verif.Protocol
