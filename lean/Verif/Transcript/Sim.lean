import Verif.Transcript.Model

/-!
# Simulation of a writing transcript by a reading one

`Sim Good tr w r Q`: whenever the prover computation `w` succeeds from a state whose squeezed
challenges are `tr` and all the challenges at the end are `Good`, the verifier computation `r`,
started from the same absorbed bytes and reading the bytes `w` wrote, succeeds, consumes exactly
these bytes, ends with the same absorbed bytes and challenges, and the results are related by
`Q`.
-/

namespace Verif.Transcript

open Verif.Msm (Coords)

variable {F K A α β γ δ : Type}

/-- What is used of the encodings: fixed length, canonical (decoding accepts exactly the
encodings), injective on coordinates. -/
structure Enc.Valid [Field K] [AddCommGroup A] (e : Enc F K A) : Prop where
  coords_valid : e.toCoords.Valid
  base_len : ∀ x, (e.baseRepr x).length = 32
  base_inj : ∀ x y, e.baseRepr x = e.baseRepr y → x = y
  scalar_len : ∀ s, (e.scalarRepr s).length = 32
  scalar_iff : ∀ bs s, e.scalarFromRepr bs = some s ↔ e.scalarRepr s = bs
  point_len : ∀ p, (e.pointBytes p).length = 32
  point_iff : ∀ bs p, e.pointFromBytes bs = some p ↔ e.pointBytes p = bs

structure Sim (Good : List F → Prop) (tr : List F) (w : W F α) (r : R F β)
    (Q : α → β → List F → Prop) : Prop where
  grows : ∀ abs out a st', w ⟨abs, out, tr⟩ = .ok (a, st') → tr <:+ st'.trace
  run : ∀ abs out a st', w ⟨abs, out, tr⟩ = .ok (a, st') → Good st'.trace →
    ∃ proof b, st'.out = out ++ proof ∧
      (∀ rest, r ⟨abs, proof ++ rest, tr⟩ = .ok (b, ⟨st'.absorbed, rest, st'.trace⟩)) ∧
      Q a b st'.trace

variable {Good : List F → Prop} {tr : List F}

theorem Sim.pure {Q : α → β → List F → Prop} (a : α) (b : β) (h : Good tr → Q a b tr) :
    Sim Good tr (Pure.pure a) (Pure.pure b) Q where
  grows abs out a' st' hw := by
    cases hw; exact List.suffix_refl _
  run abs out a' st' hw hg := by
    cases hw
    exact ⟨[], b, by simp, fun rest => rfl, h hg⟩

theorem bind_ok {σ : Type} {x : StateT σ (Except Err) α} {f : α → StateT σ (Except Err) β}
    {s s' : σ} {b : β} (h : (x >>= f) s = .ok (b, s')) :
    ∃ a s₁, x s = .ok (a, s₁) ∧ f a s₁ = .ok (b, s') := by
  change (x s >>= fun p => f p.1 p.2) = _ at h
  rcases hx : x s with err | ⟨a, s₁⟩
  · rw [hx] at h; cases h
  · rw [hx] at h; exact ⟨a, s₁, rfl, h⟩

theorem bind_run {σ : Type} {x : StateT σ (Except Err) α} {f : α → StateT σ (Except Err) β}
    {s s₁ : σ} {a : α} (h : x s = .ok (a, s₁)) : (x >>= f) s = f a s₁ := by
  change (x s >>= fun p => f p.1 p.2) = _
  rw [h]; rfl

/-- `Good` only gets harder as challenges are added. -/
def Closed (Good : List F → Prop) : Prop := ∀ t t', t <:+ t' → Good t' → Good t

theorem Sim.bind (hG : Closed Good) {w : W F α} {r : R F β} {f : α → W F γ} {g : β → R F δ}
    {Q : α → β → List F → Prop} {Q' : γ → δ → List F → Prop} (h : Sim Good tr w r Q)
    (hgrow : ∀ a tr' abs out c st', f a ⟨abs, out, tr'⟩ = .ok (c, st') → tr' <:+ st'.trace)
    (hf : ∀ a b tr', tr <:+ tr' → Q a b tr' → Sim Good tr' (f a) (g b) Q') :
    Sim Good tr (w >>= f) (r >>= g) Q' where
  grows abs out c st' hw := by
    obtain ⟨a, ⟨abs₁, out₁, tr₁⟩, h1, h2⟩ := bind_ok hw
    exact (h.grows _ _ _ _ h1).trans (hgrow _ _ _ _ _ _ h2)
  run abs out c st' hw hg := by
    obtain ⟨a, ⟨abs₁, out₁, tr₁⟩, h1, h2⟩ := bind_ok hw
    have hs := hgrow _ _ _ _ _ _ h2
    obtain ⟨p₁, b, h3, h4, h5⟩ := h.run _ _ _ _ h1 (hG _ _ hs hg)
    obtain ⟨p₂, d, h6, h7, h8⟩ := (hf a b tr₁ (h.grows _ _ _ _ h1) h5).run _ _ _ _ h2 hg
    dsimp only at h3 h4 h6 h7
    refine ⟨p₁ ++ p₂, d, by rw [h6, h3, List.append_assoc], fun rest => ?_, h8⟩
    rw [List.append_assoc, bind_run (h4 (p₂ ++ rest))]
    exact h7 rest

/-- Computations of the prover only add challenges. -/
def Grows (w : W F α) : Prop := ∀ tr abs out a st', w ⟨abs, out, tr⟩ = .ok (a, st') → tr <:+ st'.trace

theorem Grows.pure (a : α) : Grows (Pure.pure a : W F α) := by
  intro tr abs out a' st' h; cases h; exact List.suffix_refl _

theorem Grows.bind {w : W F α} {f : α → W F β} (h : Grows w) (hf : ∀ a, Grows (f a)) :
    Grows (w >>= f) := by
  intro tr abs out c st' hw
  obtain ⟨a, ⟨abs₁, out₁, tr₁⟩, h1, h2⟩ := bind_ok hw
  exact (h _ _ _ _ _ h1).trans (hf _ _ _ _ _ _ h2)

theorem Grows.panics (x : Option α) : Grows (panics x : W F α) := by
  cases x with
  | none => intro tr abs out a st' h; cases h
  | some a => exact Grows.pure a

theorem Grows.fails (err : Err) (x : Option α) : Grows (fails err x : W F α) := by
  cases x with
  | none => intro tr abs out a st' h; cases h
  | some a => exact Grows.pure a

theorem commonPoint_run (e : Enc F K A) (p : A) (s s' : WState F) (u : Unit)
    (h : W.commonPoint e p s = .ok (u, s')) :
    ∃ x y, e.coords p = some (x, y) ∧
      s' = ⟨s.absorbed ++ [prefixPoint] ++ e.baseRepr x ++ e.baseRepr y, s.out, s.trace⟩ := by
  unfold W.commonPoint at h
  rcases hc : e.coords p with _ | ⟨x, y⟩
  · rw [hc] at h; cases h
  · rw [hc] at h; cases h; exact ⟨x, y, rfl, rfl⟩

theorem Grows.writePoint (e : Enc F K A) (p : A) : Grows (W.writePoint e p) := by
  apply Grows.bind
  · intro tr abs out a st' h
    obtain ⟨x, y, -, rfl⟩ := commonPoint_run e p _ _ _ h
    exact List.suffix_refl _
  · intro _ tr abs out a st' h; cases h; exact List.suffix_refl _

theorem Grows.commonPoint (e : Enc F K A) (p : A) : Grows (W.commonPoint e p) := by
  intro tr abs out a st' h
  obtain ⟨x, y, -, rfl⟩ := commonPoint_run e p _ _ _ h
  exact List.suffix_refl _

theorem Grows.writeScalar (e : Enc F K A) (s : F) : Grows (W.writeScalar e s) := by
  intro tr abs out a st' h; cases h; exact List.suffix_refl _

theorem Grows.commonScalar (e : Enc F K A) (s : F) : Grows (W.commonScalar e s) := by
  intro tr abs out a st' h; cases h; exact List.suffix_refl _

theorem Grows.squeeze (e : Enc F K A) : Grows (W.squeeze e) := by
  intro tr abs out a st' h
  unfold W.squeeze at h
  dsimp only at h
  split at h
  · cases h
  · cases h; exact List.suffix_cons _ _

theorem Grows.mapM {ι : Type} (l : List ι) (f : ι → W F α) (hf : ∀ i, Grows (f i)) :
    Grows (l.mapM f) := by
  induction l with
  | nil => exact Grows.pure _
  | cons i t ih =>
    rw [List.mapM_cons]
    exact (hf i).bind fun a => ih.bind fun b => Grows.pure _

section Valid

variable [Field K] [AddCommGroup A] {e : Enc F K A}

theorem readPoint_run (he : e.Valid) (p : A) (abs : Bytes) (rest : Bytes) (tr : List F) {x y : K}
    (hc : e.coords p = some (x, y)) :
    R.readPoint e ⟨abs, e.pointBytes p ++ rest, tr⟩
      = .ok (p, ⟨abs ++ [prefixPoint] ++ e.baseRepr x ++ e.baseRepr y, rest, tr⟩) := by
  have hl := he.point_len p
  have h1 : (R.readExact : R F Bytes) ⟨abs, e.pointBytes p ++ rest, tr⟩
      = .ok (e.pointBytes p, ⟨abs, rest, tr⟩) := by
    unfold R.readExact
    rw [if_neg (by simp only [List.length_append, hl]; omega)]
    simp only [List.take_append_of_le_length (le_of_eq hl.symm),
      List.drop_append_of_le_length (le_of_eq hl.symm)]
    rw [List.take_of_length_le hl.le, List.drop_of_length_le hl.le, List.nil_append]
  unfold R.readPoint
  rw [bind_run h1, (he.point_iff _ p).2 rfl]
  change (R.commonPoint e p >>= fun _ => Pure.pure p) _ = _
  have h2 : R.commonPoint e p ⟨abs, rest, tr⟩
      = .ok ((), ⟨abs ++ [prefixPoint] ++ e.baseRepr x ++ e.baseRepr y, rest, tr⟩) := by
    unfold R.commonPoint
    rw [hc]
  rw [bind_run h2]; rfl

theorem readScalar_run (he : e.Valid) (s : F) (abs : Bytes) (rest : Bytes) (tr : List F) :
    R.readScalar e ⟨abs, e.scalarRepr s ++ rest, tr⟩
      = .ok (s, ⟨abs ++ [prefixScalar] ++ e.scalarRepr s, rest, tr⟩) := by
  have hl := he.scalar_len s
  have h1 : (R.readExact : R F Bytes) ⟨abs, e.scalarRepr s ++ rest, tr⟩
      = .ok (e.scalarRepr s, ⟨abs, rest, tr⟩) := by
    unfold R.readExact
    rw [if_neg (by simp only [List.length_append, hl]; omega)]
    simp only [List.take_append_of_le_length (le_of_eq hl.symm),
      List.drop_append_of_le_length (le_of_eq hl.symm)]
    rw [List.take_of_length_le hl.le, List.drop_of_length_le hl.le, List.nil_append]
  unfold R.readScalar
  rw [bind_run h1, (he.scalar_iff _ s).2 rfl]
  rfl

theorem getScalar_ok (he : e.Valid) (bs : Bytes) :
    getScalar e (challenge255 e bs) = some (e.fromUniform bs) := by
  unfold getScalar challenge255
  rw [(he.scalar_iff _ _).2 rfl]

theorem squeeze_ok (he : e.Valid) (s : WState F) : W.squeeze e s
    = .ok (e.fromUniform (e.blake2b (s.absorbed ++ [prefixChallenge])),
      ⟨s.absorbed ++ [prefixChallenge], s.out,
        e.fromUniform (e.blake2b (s.absorbed ++ [prefixChallenge])) :: s.trace⟩) := by
  unfold W.squeeze
  dsimp only
  rw [getScalar_ok he]

theorem squeezeR_ok (he : e.Valid) (s : RState F) : R.squeeze e s
    = .ok (e.fromUniform (e.blake2b (s.absorbed ++ [prefixChallenge])),
      ⟨s.absorbed ++ [prefixChallenge], s.input,
        e.fromUniform (e.blake2b (s.absorbed ++ [prefixChallenge])) :: s.trace⟩) := by
  unfold R.squeeze
  dsimp only
  rw [getScalar_ok he]

theorem Sim.writePoint (he : e.Valid) (p : A) :
    Sim Good tr (W.writePoint e p) (R.readPoint e) fun _ q tr' => q = p ∧ p ≠ 0 ∧ tr' = tr where
  grows := Grows.writePoint e p tr
  run abs out a st' hw _ := by
    obtain ⟨_, s₁, h1, h2⟩ := bind_ok hw
    obtain ⟨x, y, hc, rfl⟩ := commonPoint_run e p _ _ _ h1
    cases h2
    refine ⟨e.pointBytes p, p, rfl, fun rest => readPoint_run he p abs rest tr hc, rfl, ?_, rfl⟩
    intro h0
    rw [(he.coords_valid.none_iff p).2 h0] at hc
    cases hc

theorem Sim.writeScalar (he : e.Valid) (s : F) :
    Sim Good tr (W.writeScalar e s) (R.readScalar e) fun _ q tr' => q = s ∧ tr' = tr where
  grows := Grows.writeScalar e s tr
  run abs out a st' hw _ := by
    cases hw
    exact ⟨e.scalarRepr s, s, rfl, fun rest => readScalar_run he s abs rest tr, rfl, rfl⟩

theorem Sim.commonPoint (p : A) :
    Sim Good tr (W.commonPoint e p) (R.commonPoint e p) fun _ _ tr' => tr' = tr where
  grows := Grows.commonPoint e p tr
  run abs out a st' hw _ := by
    obtain ⟨x, y, hc, rfl⟩ := commonPoint_run e p _ _ _ hw
    refine ⟨[], (), by simp, fun rest => ?_, rfl⟩
    unfold R.commonPoint
    rw [hc]; rfl

theorem Sim.commonScalar (s : F) :
    Sim Good tr (W.commonScalar e s) (R.commonScalar e s) fun _ _ tr' => tr' = tr where
  grows := Grows.commonScalar e s tr
  run abs out a st' hw _ := by
    cases hw
    exact ⟨[], (), by simp, fun rest => rfl, rfl⟩

theorem Sim.squeeze (he : e.Valid) :
    Sim Good tr (W.squeeze e) (R.squeeze e)
      fun c c' tr' => c' = c ∧ tr' = c :: tr ∧ Good (c :: tr) where
  grows := Grows.squeeze e tr
  run abs out a st' hw hg := by
    rw [squeeze_ok he] at hw
    cases hw
    exact ⟨[], _, by simp, fun rest => squeezeR_ok he _, rfl, rfl, hg⟩

end Valid

/-- The prover does a pure step that may fail. -/
theorem Sim.panicsW {x : Option α} {f : α → W F γ} {r : R F δ} {Q : γ → δ → List F → Prop}
    (h : ∀ a, x = some a → Sim Good tr (f a) r Q) : Sim Good tr (panics x >>= f) r Q := by
  cases x with
  | none => exact ⟨fun _ _ _ _ h => (by cases h), fun _ _ _ _ h => (by cases h)⟩
  | some a =>
    have : ((panics (some a) : W F α) >>= f) = f a := rfl
    rw [this]; exact h a rfl

theorem Sim.failsW {x : Option α} {f : α → W F γ} {r : R F δ} {Q : γ → δ → List F → Prop}
    {err : Err} (h : ∀ a, x = some a → Sim Good tr (f a) r Q) :
    Sim Good tr (fails err x >>= f) r Q := by
  cases x with
  | none => exact ⟨fun _ _ _ _ h => (by cases h), fun _ _ _ _ h => (by cases h)⟩
  | some a =>
    have : ((fails err (some a) : W F α) >>= f) = f a := rfl
    rw [this]; exact h a rfl

/-- The verifier does a pure step that succeeds. -/
theorem Sim.panicsR {x : Option β} {w : W F γ} {g : β → R F δ} {Q : γ → δ → List F → Prop} {b : β}
    (hx : x = some b) (h : Sim Good tr w (g b) Q) : Sim Good tr w (panics x >>= g) Q := by
  subst hx; exact h

theorem Sim.failsR {x : Option β} {w : W F γ} {g : β → R F δ} {Q : γ → δ → List F → Prop} {b : β}
    {err : Err} (hx : x = some b) (h : Sim Good tr w (g b) Q) :
    Sim Good tr w (fails err x >>= g) Q := by
  subst hx; exact h

theorem Sim.mapErr {w : W F α} {r : R F β} {Q : α → β → List F → Prop} {err : Err}
    (h : Sim Good tr w r Q) : Sim Good tr w (mapErr err r) Q where
  grows := h.grows
  run abs out a st' hw hg := by
    obtain ⟨p, b, h1, h2, h3⟩ := h.run _ _ _ _ hw hg
    refine ⟨p, b, h1, fun rest => ?_, h3⟩
    unfold Transcript.mapErr
    rw [h2 rest]

theorem Sim.mono {w : W F α} {r : R F β} {Q Q' : α → β → List F → Prop}
    (h : Sim Good tr w r Q) (hQ : ∀ a b t, tr <:+ t → Good t → Q a b t → Q' a b t) :
    Sim Good tr w r Q' where
  grows := h.grows
  run abs out a st' hw hg := by
    obtain ⟨p, b, h1, h2, h3⟩ := h.run _ _ _ _ hw hg
    exact ⟨p, b, h1, h2, hQ _ _ _ (h.grows _ _ _ _ hw) hg h3⟩

/-- Facts about the challenges squeezed so far may be used. -/
theorem Sim.good (hG : Closed Good) {w : W F α} {r : R F β} {Q : α → β → List F → Prop}
    (hgrow : Grows w) (h : Good tr → Sim Good tr w r Q) : Sim Good tr w r Q where
  grows := hgrow tr
  run abs out a st' hw hg := (h (hG _ _ (hgrow _ _ _ _ _ hw) hg)).run abs out a st' hw hg

/-- Loops of the same length. -/
theorem Sim.mapM (hG : Closed Good) {ι κ : Type} {l : List ι} {m : List κ} {f : ι → W F α}
    {g : κ → R F β} {Q : ι → κ → α → β → List F → Prop} (hlen : l.length = m.length)
    (hgrow : ∀ i, Grows (f i))
    (hQ : ∀ i k a b t t', t <:+ t' → Q i k a b t → Q i k a b t')
    (hf : ∀ i k tr', (i, k) ∈ l.zip m → tr <:+ tr' → Sim Good tr' (f i) (g k) (Q i k)) :
    Sim Good tr (l.mapM f) (m.mapM g) fun as bs t =>
      List.Forall₂ (fun p q => Q p.1 q.1 p.2 q.2 t) (l.zip as) (m.zip bs) ∧ as.length = l.length ∧
        bs.length = m.length := by
  induction l generalizing m tr with
  | nil =>
    cases m with
    | nil => exact Sim.pure _ _ fun _ => ⟨by simp, rfl, rfl⟩
    | cons => simp at hlen
  | cons i l ih =>
    cases m with
    | nil => simp at hlen
    | cons k m =>
      rw [List.mapM_cons, List.mapM_cons]
      refine (hf i k tr (by simp) (List.suffix_refl _)).bind hG
        (fun a tr' abs out c st' h => ((Grows.mapM l f hgrow).bind fun b => Grows.pure _)
          tr' abs out c st' h) ?_
      intro a b tr' htr hab
      refine (ih (by simpa using hlen) fun i' k' tr'' hm ht => hf i' k' tr''
        (List.mem_cons_of_mem _ hm) (htr.trans ht)).bind hG
        (fun a tr' abs out c st' h => Grows.pure _ tr' abs out c st' h) ?_
      intro as bs tr'' htr' ⟨h1, h2, h3⟩
      exact Sim.pure _ _ fun _ => ⟨List.Forall₂.cons (hQ _ _ _ _ _ _ htr' hab) h1, by simp [h2],
        by simp [h3]⟩

end Verif.Transcript
