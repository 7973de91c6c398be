import Verif.Transcript.Sim
import Verif.Msm.Props

/-!
# C26: prover and verifier transcripts agree and absorb unambiguously

An interaction is a list of `Act`s; `Req` is what the verifier knows of it beforehand.
-/

namespace Verif.Transcript

variable {F K A : Type}

/-- One use of the prover's transcript. -/
inductive Act (F A : Type)
  | point (p : A)
  | scalar (s : F)
  | commonPoint (p : A)
  | commonScalar (s : F)
  | challenge

/-- What the verifier calls in turn: it knows the common inputs, not the written ones. -/
inductive Req (F A : Type)
  | point
  | scalar
  | commonPoint (p : A)
  | commonScalar (s : F)
  | challenge

/-- What a call returns. -/
inductive Val (F A : Type)
  | point (p : A)
  | scalar (s : F)
  | challenge (c : F)
  | unit

/-- A message as the hash is meant to see it. -/
inductive Msg (F A : Type)
  | challenge
  | point (p : A)
  | scalar (s : F)

def Act.req : Act F A → Req F A
  | .point _ => .point
  | .scalar _ => .scalar
  | .commonPoint p => .commonPoint p
  | .commonScalar s => .commonScalar s
  | .challenge => .challenge

def Act.msg : Act F A → Msg F A
  | .point p => .point p
  | .scalar s => .scalar s
  | .commonPoint p => .point p
  | .commonScalar s => .scalar s
  | .challenge => .challenge

/-- The calls of the prover, with the values they concern. -/
def Act.run (e : Enc F K A) : Act F A → W F (Val F A)
  | .point p => do W.writePoint e p; return .point p
  | .scalar s => do W.writeScalar e s; return .scalar s
  | .commonPoint p => do W.commonPoint e p; return .unit
  | .commonScalar s => do W.commonScalar e s; return .unit
  | .challenge => do let c ← W.squeeze e; return .challenge c

/-- The calls of the verifier, with the values they return. -/
def Req.run (e : Enc F K A) : Req F A → R F (Val F A)
  | .point => do let p ← R.readPoint e; return .point p
  | .scalar => do let s ← R.readScalar e; return .scalar s
  | .commonPoint p => do R.commonPoint e p; return .unit
  | .commonScalar s => do R.commonScalar e s; return .unit
  | .challenge => do let c ← R.squeeze e; return .challenge c

variable [Field K] [AddCommGroup A] {e : Enc F K A}

theorem act_grows (a : Act F A) : Grows (a.run e) := by
  cases a with
  | point p => exact (Grows.writePoint e p).bind fun _ => Grows.pure _
  | scalar s => exact (Grows.writeScalar e s).bind fun _ => Grows.pure _
  | commonPoint p => exact (Grows.commonPoint e p).bind fun _ => Grows.pure _
  | commonScalar s => exact (Grows.commonScalar e s).bind fun _ => Grows.pure _
  | challenge => exact (Grows.squeeze e).bind fun _ => Grows.pure _

theorem closed_true : Closed (fun _ : List F => True) := fun _ _ _ _ => trivial

theorem act_sim (he : e.Valid) (a : Act F A) (tr : List F) :
    Sim (fun _ => True) tr (a.run e) (a.req.run e) fun v v' _ => v' = v := by
  cases a with
  | point p =>
    exact (Sim.writePoint he p).bind closed_true (fun _ => Grows.pure _)
      (by rintro _ _ _ _ ⟨rfl, -, -⟩; exact Sim.pure _ _ fun _ => rfl)
  | scalar p =>
    exact (Sim.writeScalar he p).bind closed_true (fun _ => Grows.pure _)
      (by rintro _ _ _ _ ⟨rfl, -⟩; exact Sim.pure _ _ fun _ => rfl)
  | commonPoint p =>
    exact (Sim.commonPoint p).bind closed_true (fun _ => Grows.pure _)
      (by intros; exact Sim.pure _ _ fun _ => rfl)
  | commonScalar p =>
    exact (Sim.commonScalar p).bind closed_true (fun _ => Grows.pure _)
      (by intros; exact Sim.pure _ _ fun _ => rfl)
  | challenge =>
    exact (Sim.squeeze he).bind closed_true (fun _ => Grows.pure _)
      (by rintro _ _ _ _ ⟨rfl, -, -⟩; exact Sim.pure _ _ fun _ => rfl)

/-- **C26**: replaying the reads on what the prover wrote (followed by anything) returns the same
points, scalars and challenges, and consumes exactly what was written. -/
theorem replay (he : e.Valid) (acts : List (Act F A)) (st st' : WState F) (vals : List (Val F A))
    (h : (acts.mapM (Act.run e)) st = .ok (vals, st')) :
    ∃ proof, st'.out = st.out ++ proof ∧ ∀ rest,
      (acts.map Act.req).mapM (Req.run e) ⟨st.absorbed, proof ++ rest, st.trace⟩
        = .ok (vals, ⟨st'.absorbed, rest, st'.trace⟩) := by
  have hs : Sim (fun _ : List F => True) st.trace (acts.mapM (Act.run e))
      ((acts.map Act.req).mapM (Req.run e)) _ :=
    Sim.mapM (Q := fun _ _ v v' _ => v' = v) closed_true (by simp) act_grows
      (fun _ _ _ _ _ _ _ h => h) (by
        intro i k tr' hm _
        have : k = i.req := by
          clear h
          induction acts with
          | nil => simp at hm
          | cons a as ih =>
            simp only [List.map_cons, List.zip_cons_cons, List.mem_cons, Prod.mk.injEq] at hm
            rcases hm with ⟨rfl, rfl⟩ | hm
            · rfl
            · exact ih hm
        subst this
        exact act_sim he i tr')
  obtain ⟨proof, b, h1, h2, h3, h4, h5⟩ := hs.run _ _ _ _ h trivial
  refine ⟨proof, h1, fun rest => ?_⟩
  rw [h2 rest]
  have : b = vals := by
    clear h2 h1 h hs
    induction acts generalizing vals b with
    | nil => simp_all
    | cons a as ih =>
      cases vals with
      | nil => simp at h4
      | cons v vs =>
        cases b with
        | nil => simp at h5
        | cons b bs =>
          simp only [List.map_cons, List.zip_cons_cons, List.forall₂_cons] at h3
          rw [h3.1, ih vs bs h3.2 (by simpa using h4) (by simpa using h5)]
  rw [this]

/-! ## The absorbed bytes -/

/-- The bytes of one message. -/
def Msg.bytes (e : Enc F K A) : Msg F A → Bytes
  | .challenge => [prefixChallenge]
  | .point p => match e.coords p with
    | none => []
    | some (x, y) => [prefixPoint] ++ e.baseRepr x ++ e.baseRepr y
  | .scalar s => [prefixScalar] ++ e.scalarRepr s

/-- Messages the transcript accepts. -/
def Msg.Ok (m : Msg F A) : Prop := ∀ p, m = .point p → p ≠ 0

theorem act_run (he : e.Valid) (a : Act F A) (st : WState F) :
    (a.msg.Ok → ∃ v st', a.run e st = .ok (v, st') ∧
      st'.absorbed = st.absorbed ++ a.msg.bytes e) ∧
    (¬ a.msg.Ok → a.run e st = .error .io) := by
  have hp : ∀ p : A, (∀ q, (Msg.point p : Msg F A) = .point q → q ≠ 0) ↔ p ≠ 0 := by
    intro p
    constructor
    · intro h; exact h p rfl
    · rintro h q ⟨⟩; exact h
  have hpoint : ∀ (p : A) (st : WState F),
      (p ≠ 0 → ∃ v st', W.commonPoint e p st = .ok (v, st') ∧
        st'.absorbed = st.absorbed ++ (Msg.point p : Msg F A).bytes e) ∧
      (¬ p ≠ 0 → W.commonPoint e p st = .error .io) := by
    intro p st
    constructor
    · intro h0
      rcases hc : e.coords p with _ | ⟨x, y⟩
      · exact absurd ((he.coords_valid.none_iff p).1 hc) h0
      · refine ⟨(), _, by unfold W.commonPoint; rw [hc], ?_⟩
        simp [Msg.bytes, hc]
    · intro h0
      have := (he.coords_valid.none_iff p).2 (not_not.1 h0)
      unfold W.commonPoint; rw [this]
  cases a with
  | point p =>
    rw [show (Act.point p : Act F A).msg.Ok ↔ p ≠ 0 from hp p]
    refine ⟨fun h => ?_, fun h => ?_⟩
    · obtain ⟨v, st', h1, h2⟩ := (hpoint p st).1 h
      refine ⟨.point p, { st' with out := st'.out ++ e.pointBytes p }, ?_, h2⟩
      unfold Act.run W.writePoint
      simp only [bind_assoc]
      rw [bind_run h1]; rfl
    · have h1 := (hpoint p st).2 h
      change ((W.commonPoint e p >>= fun _ => W.writeAll (e.pointBytes p)) >>= _) st = _
      rw [bind_assoc]
      change (W.commonPoint e p st >>= _) = _
      rw [h1]; rfl
  | commonPoint p =>
    rw [show (Act.commonPoint p : Act F A).msg.Ok ↔ p ≠ 0 from hp p]
    refine ⟨fun h => ?_, fun h => ?_⟩
    · obtain ⟨v, st', h1, h2⟩ := (hpoint p st).1 h
      refine ⟨.unit, st', ?_, h2⟩
      change (W.commonPoint e p >>= fun _ => Pure.pure Val.unit) st = _
      rw [bind_run h1]; rfl
    · have h1 := (hpoint p st).2 h
      change (W.commonPoint e p st >>= _) = _
      rw [h1]; rfl
  | scalar s =>
    refine ⟨fun _ => ⟨_, _, rfl, ?_⟩, fun h => absurd (by rintro p ⟨⟩) h⟩
    simp [Act.msg, Msg.bytes]
  | commonScalar s =>
    refine ⟨fun _ => ⟨_, _, rfl, ?_⟩, fun h => absurd (by rintro p ⟨⟩) h⟩
    simp [Act.msg, Msg.bytes]
  | challenge =>
    refine ⟨fun _ => ?_, fun h => absurd (by rintro p ⟨⟩) h⟩
    have h1 := squeeze_ok he st
    have h2 : (Act.challenge : Act F A).run e st = _ := bind_run (f := fun c =>
      (Pure.pure (Val.challenge c) : W F (Val F A))) h1
    exact ⟨_, _, h2, rfl⟩

/-- The prover's calls succeed exactly when none of them concerns the point at infinity, and
then the hash has seen the concatenation of the messages. -/
theorem absorbed_eq (he : e.Valid) (acts : List (Act F A)) (st : WState F) :
    ((∀ a ∈ acts, a.msg.Ok) → ∃ vals st', (acts.mapM (Act.run e)) st = .ok (vals, st') ∧
      st'.absorbed = st.absorbed ++ (acts.map fun a => a.msg.bytes e).flatten) ∧
    ((¬ ∀ a ∈ acts, a.msg.Ok) → (acts.mapM (Act.run e)) st = .error .io) := by
  induction acts generalizing st with
  | nil => exact ⟨fun _ => ⟨[], st, rfl, by simp⟩, fun h => absurd (by simp) h⟩
  | cons a as ih =>
    rw [List.mapM_cons]
    by_cases ha : a.msg.Ok
    · obtain ⟨v, s₁, h1, h2⟩ := (act_run he a st).1 ha
      rw [bind_run h1]
      constructor
      · intro h
        obtain ⟨vs, s₂, h3, h4⟩ := (ih s₁).1 fun a' h' => h a' (List.mem_cons_of_mem _ h')
        refine ⟨v :: vs, s₂, by rw [bind_run h3]; rfl, ?_⟩
        rw [h4, h2]; simp
      · intro h
        have h3 := (ih s₁).2 fun h' => h (by
          intro a' h''
          rcases List.mem_cons.1 h'' with rfl | h''
          · exact ha
          · exact h' a' h'')
        change (List.mapM (Act.run e) as s₁ >>= _) = _
        rw [h3]; rfl
    · refine ⟨fun h => absurd (h a List.mem_cons_self) ha, fun _ => ?_⟩
      change (Act.run e a st >>= _) = _
      rw [(act_run he a st).2 ha]; rfl

theorem msg_prefix_free (he : e.Valid) (m m' : Msg F A) (hm : m.Ok) (hm' : m'.Ok) (r r' : Bytes)
    (h : m.bytes e ++ r = m'.bytes e ++ r') : m = m' ∧ r = r' := by
  have hpt : ∀ p : A, p ≠ 0 → ∃ x y, e.coords p = some (x, y) := by
    intro p hp
    rcases hc : e.coords p with _ | ⟨x, y⟩
    · exact absurd ((he.coords_valid.none_iff p).1 hc) hp
    · exact ⟨x, y, rfl⟩
  cases m with
  | challenge =>
    cases m' with
    | challenge => simpa [Msg.bytes] using h
    | point p =>
      obtain ⟨x, y, hc⟩ := hpt p (hm' p rfl)
      simp [Msg.bytes, hc, prefixChallenge, prefixPoint] at h
    | scalar s => simp [Msg.bytes, prefixChallenge, prefixScalar] at h
  | point p =>
    obtain ⟨x, y, hc⟩ := hpt p (hm p rfl)
    cases m' with
    | challenge => simp [Msg.bytes, hc, prefixChallenge, prefixPoint] at h
    | point q =>
      obtain ⟨x', y', hc'⟩ := hpt q (hm' q rfl)
      simp only [Msg.bytes, hc, hc', List.append_assoc, List.cons_append, List.nil_append,
        List.cons.injEq, true_and] at h
      obtain ⟨h1, h2⟩ := List.append_inj h (by rw [he.base_len, he.base_len])
      obtain ⟨h3, h4⟩ := List.append_inj h2 (by rw [he.base_len, he.base_len])
      have hx := he.base_inj _ _ h1
      have hy := he.base_inj _ _ h3
      subst hx hy
      have := (he.coords_valid.fromXY_eq _ _ _ hc).symm.trans (he.coords_valid.fromXY_eq _ _ _ hc')
      exact ⟨by rw [Option.some.inj this], h4⟩
    | scalar s => simp [Msg.bytes, hc, prefixPoint, prefixScalar] at h
  | scalar s =>
    cases m' with
    | challenge => simp [Msg.bytes, prefixChallenge, prefixScalar] at h
    | point p =>
      obtain ⟨x, y, hc⟩ := hpt p (hm' p rfl)
      simp [Msg.bytes, hc, prefixScalar, prefixPoint] at h
    | scalar s' =>
      simp only [Msg.bytes, List.append_assoc, List.cons_append, List.nil_append, List.cons.injEq,
        true_and] at h
      obtain ⟨h1, h2⟩ := List.append_inj h (by rw [he.scalar_len, he.scalar_len])
      have h3 := (he.scalar_iff _ s).2 rfl
      rw [h1, (he.scalar_iff _ s').2 rfl] at h3
      exact ⟨by rw [Option.some.inj h3], h2⟩

/-- **C26**: two interactions after which the hash has seen the same bytes consist of the same
messages; so different histories give the hash different inputs. -/
theorem absorb_injective (he : e.Valid) (acts acts' : List (Act F A))
    (st s₁ s₂ : WState F) (v₁ v₂ : List (Val F A))
    (h₁ : (acts.mapM (Act.run e)) st = .ok (v₁, s₁)) (h₂ : (acts'.mapM (Act.run e)) st = .ok (v₂, s₂))
    (heq : s₁.absorbed = s₂.absorbed) : acts.map Act.msg = acts'.map Act.msg := by
  have hok : ∀ (l : List (Act F A)) v s, (l.mapM (Act.run e)) st = .ok (v, s) →
      (∀ a ∈ l, a.msg.Ok) ∧ s.absorbed = st.absorbed ++ (l.map fun a => a.msg.bytes e).flatten := by
    intro l v s hl
    by_cases ho : ∀ a ∈ l, a.msg.Ok
    · obtain ⟨v', s', h3, h4⟩ := (absorbed_eq he l st).1 ho
      rw [hl] at h3; cases h3
      exact ⟨ho, h4⟩
    · rw [(absorbed_eq he l st).2 ho] at hl; cases hl
  obtain ⟨o₁, b₁⟩ := hok _ _ _ h₁
  obtain ⟨o₂, b₂⟩ := hok _ _ _ h₂
  rw [b₁, b₂] at heq
  replace heq := List.append_cancel_left heq
  clear hok h₁ h₂ b₁ b₂
  have hne : ∀ m : Msg F A, m.Ok → m.bytes e ≠ [] := by
    intro m hm
    cases m with
    | challenge => simp [Msg.bytes]
    | scalar => simp [Msg.bytes]
    | point p =>
      rcases hc : e.coords p with _ | ⟨x, y⟩
      · exact absurd ((he.coords_valid.none_iff p).1 hc) (hm p rfl)
      · simp [Msg.bytes, hc]
  induction acts generalizing acts' with
  | nil =>
    cases acts' with
    | nil => rfl
    | cons a as =>
      simp only [List.map_nil, List.flatten_nil, List.map_cons, List.flatten_cons] at heq
      exact absurd (List.append_eq_nil_iff.1 heq.symm).1 (hne _ (o₂ a List.mem_cons_self))
  | cons a as ih =>
    cases acts' with
    | nil =>
      simp only [List.map_nil, List.flatten_nil, List.map_cons, List.flatten_cons] at heq
      exact absurd (List.append_eq_nil_iff.1 heq).1 (hne _ (o₁ a List.mem_cons_self))
    | cons a' as' =>
      simp only [List.map_cons, List.flatten_cons] at heq
      obtain ⟨h3, h4⟩ := msg_prefix_free he _ _ (o₁ a List.mem_cons_self) (o₂ a' List.mem_cons_self)
        _ _ heq
      simp only [List.map_cons, h3]
      rw [ih as' (fun x hx => o₁ x (List.mem_cons_of_mem _ hx))
        (fun x hx => o₂ x (List.mem_cons_of_mem _ hx)) h4]

/-- The challenge returned is the hash of everything absorbed so far and of the fact that a
challenge is asked for. -/
theorem challenge_eq (he : e.Valid) (st : WState F) :
    ∃ st', W.squeeze e st = .ok (e.fromUniform (e.blake2b (st.absorbed ++ [0])), st') ∧
      st'.absorbed = st.absorbed ++ [0] :=
  ⟨_, squeeze_ok he st, rfl⟩

/-- **C26**: reading a scalar succeeds exactly when the next 32 bytes exist and are the canonical
encoding of a scalar; any other input is an error, not a panic. -/
theorem readScalar_iff (he : e.Valid) (st : RState F) :
    (∀ s st', R.readScalar e st = .ok (s, st') ↔
      st.input = e.scalarRepr s ++ st'.input ∧
      st'.absorbed = st.absorbed ++ [2] ++ e.scalarRepr s ∧ st'.trace = st.trace) ∧
    ((∀ s rest, st.input ≠ e.scalarRepr s ++ rest) → R.readScalar e st = .error .io) := by
  obtain ⟨abs, input, tr⟩ := st
  have key : (∃ s rest, input = e.scalarRepr s ++ rest) ∨
      R.readScalar e ⟨abs, input, tr⟩ = .error .io := by
    by_cases hl : input.length < 32
    · right
      have : (R.readExact : R F Bytes) ⟨abs, input, tr⟩ = .error .io := by
        unfold R.readExact; rw [if_pos hl]
      change ((R.readExact : R F Bytes) _ >>= _) = _
      rw [this]; rfl
    · rcases hs : e.scalarFromRepr (input.take 32) with _ | s
      · right
        have : (R.readExact : R F Bytes) ⟨abs, input, tr⟩
            = .ok (input.take 32, ⟨abs, input.drop 32, tr⟩) := by
          unfold R.readExact; rw [if_neg hl]
        unfold R.readScalar
        rw [bind_run this, hs]; rfl
      · left
        refine ⟨s, input.drop 32, ?_⟩
        rw [(he.scalar_iff _ _).1 hs, List.take_append_drop]
  constructor
  · rintro s ⟨abs', input', tr'⟩
    constructor
    · intro h
      rcases key with ⟨s', rest, rfl⟩ | hk
      · rw [readScalar_run he] at h
        cases h; exact ⟨rfl, rfl, rfl⟩
      · rw [hk] at h; cases h
    · rintro ⟨h1, h2, h3⟩
      dsimp only at h1 h2 h3
      subst h1 h2 h3
      exact readScalar_run he _ _ _ _
  · intro h
    rcases key with ⟨s', rest, rfl⟩ | hk
    · exact absurd rfl (h s' rest)
    · exact hk

/-- **C26**: reading a point succeeds exactly when the next 32 bytes exist and are the encoding
of a point other than the identity; any other input is an error. -/
theorem readPoint_iff (he : e.Valid) (st : RState F) :
    (∀ p st', R.readPoint e st = .ok (p, st') ↔
      st.input = e.pointBytes p ++ st'.input ∧ p ≠ 0 ∧
      (∃ x y, e.coords p = some (x, y) ∧
        st'.absorbed = st.absorbed ++ [1] ++ e.baseRepr x ++ e.baseRepr y) ∧
      st'.trace = st.trace) ∧
    ((∀ p rest, st.input = e.pointBytes p ++ rest → p = 0) → R.readPoint e st = .error .io) := by
  obtain ⟨abs, input, tr⟩ := st
  have key : (∃ p rest, input = e.pointBytes p ++ rest ∧ p ≠ 0) ∨
      R.readPoint e ⟨abs, input, tr⟩ = .error .io := by
    by_cases hl : input.length < 32
    · right
      have : (R.readExact : R F Bytes) ⟨abs, input, tr⟩ = .error .io := by
        unfold R.readExact; rw [if_pos hl]
      change ((R.readExact : R F Bytes) _ >>= _) = _
      rw [this]; rfl
    · have hx : (R.readExact : R F Bytes) ⟨abs, input, tr⟩
          = .ok (input.take 32, ⟨abs, input.drop 32, tr⟩) := by
        unfold R.readExact; rw [if_neg hl]
      rcases hs : e.pointFromBytes (input.take 32) with _ | p
      · right
        unfold R.readPoint
        rw [bind_run hx, hs]; rfl
      · by_cases hp : p = 0
        · right
          unfold R.readPoint
          rw [bind_run hx, hs]
          change (R.commonPoint e p _ >>= _) = _
          unfold R.commonPoint
          rw [(he.coords_valid.none_iff p).2 hp]; rfl
        · left
          refine ⟨p, input.drop 32, ?_, hp⟩
          rw [(he.point_iff _ _).1 hs, List.take_append_drop]
  have hpt : ∀ p : A, p ≠ 0 → ∃ x y, e.coords p = some (x, y) := by
    intro p hp
    rcases hc : e.coords p with _ | ⟨x, y⟩
    · exact absurd ((he.coords_valid.none_iff p).1 hc) hp
    · exact ⟨x, y, rfl⟩
  constructor
  · rintro p ⟨abs', input', tr'⟩
    constructor
    · intro h
      rcases key with ⟨p', rest, rfl, hp⟩ | hk
      · obtain ⟨x, y, hc⟩ := hpt p' hp
        rw [readPoint_run he _ _ _ _ hc] at h
        cases h; exact ⟨rfl, hp, ⟨x, y, hc, rfl⟩, rfl⟩
      · rw [hk] at h; cases h
    · rintro ⟨h1, h0, ⟨x, y, hc, h2⟩, h3⟩
      dsimp only at h1 h2 h3
      subst h1 h2 h3
      exact readPoint_run he _ _ _ _ hc
  · intro h
    rcases key with ⟨p', rest, rfl, hp⟩ | hk
    · exact absurd (h p' rest rfl) hp
    · exact hk

/-! ## A concrete encoding, for the curve `y² = x³ + 5` over the field of 7 elements -/

section Example

open Verif.Msm

/-- One byte followed by 31 zeros. -/
def pad (b : ℕ) : Bytes := UInt8.ofNat b :: List.replicate 31 0

theorem pad_inj {a b : ℕ} (ha : a < 256) (hb : b < 256) (h : pad a = pad b) : a = b := by
  simp only [pad, List.cons.injEq, and_true] at h
  have := congrArg UInt8.toNat h
  simp only [UInt8.toNat_ofNat'] at this
  omega

/-- Both fields have 7 elements here. -/
def repr7 (x : ZMod 7) : Bytes := pad x.val

/-- The identity is 255, any other point is `7 x + y`. -/
noncomputable def point7 (p : curve7.Point) : Bytes :=
  match (weierstrass curve7).coords p with
  | none => pad 255
  | some (x, y) => pad (7 * x.val + y.val)

open Classical in
noncomputable def enc7 (hash : Bytes → Bytes) (uniform : Bytes → ZMod 7) :
    Enc (ZMod 7) (ZMod 7) curve7.Point where
  toCoords := weierstrass curve7
  baseRepr := repr7
  scalarRepr := repr7
  scalarFromRepr bs := if h : ∃ s, repr7 s = bs then some h.choose else none
  pointBytes := point7
  pointFromBytes bs := if h : ∃ p, point7 p = bs then some h.choose else none
  blake2b := hash
  fromUniform := uniform

theorem repr7_inj (x y : ZMod 7) (h : repr7 x = repr7 y) : x = y :=
  ZMod.val_injective 7 (pad_inj (by have := ZMod.val_lt x; omega) (by have := ZMod.val_lt y; omega) h)

theorem point7_inj (p q : curve7.Point) (h : point7 p = point7 q) : p = q := by
  have hv := weierstrass_valid curve7 rfl rfl
  have hval : ∀ x : ZMod 7, x.val < 7 := ZMod.val_lt
  unfold point7 at h
  rcases hp : (weierstrass curve7).coords p with _ | ⟨x, y⟩ <;>
    rcases hq : (weierstrass curve7).coords q with _ | ⟨x', y'⟩ <;> rw [hp, hq] at h
  · rw [(hv.none_iff p).1 hp, (hv.none_iff q).1 hq]
  · have := pad_inj (by omega) (by have := hval x'; have := hval y'; omega) h
    have := hval x'; have := hval y'; omega
  · have := pad_inj (by have := hval x; have := hval y; omega) (by omega) h
    have := hval x; have := hval y; omega
  · have h1 := hval x; have h2 := hval y; have h3 := hval x'; have h4 := hval y'
    have := pad_inj (by omega) (by omega) h
    have hx : x = x' := ZMod.val_injective 7 (by omega)
    have hy : y = y' := ZMod.val_injective 7 (by omega)
    subst hx hy
    exact Option.some.inj ((hv.fromXY_eq _ _ _ hp).symm.trans (hv.fromXY_eq _ _ _ hq))

theorem enc7_valid (hash : Bytes → Bytes) (uniform : Bytes → ZMod 7) :
    (enc7 hash uniform).Valid where
  coords_valid := weierstrass_valid curve7 rfl rfl
  base_len x := by simp [enc7, repr7, pad]
  base_inj := repr7_inj
  scalar_len x := by simp [enc7, repr7, pad]
  scalar_iff bs s := by
    simp only [enc7]
    constructor
    · intro h
      split at h
      · rename_i hx; rw [← Option.some.inj h]; exact hx.choose_spec
      · cases h
    · intro h
      have hx : ∃ s, repr7 s = bs := ⟨s, h⟩
      rw [dif_pos hx]
      exact congrArg some (repr7_inj _ _ (hx.choose_spec.trans h.symm))
  point_len p := by
    simp only [enc7, point7]
    split <;> simp [pad]
  point_iff bs s := by
    simp only [enc7]
    constructor
    · intro h
      split at h
      · rename_i hx; rw [← Option.some.inj h]; exact hx.choose_spec
      · cases h
    · intro h
      have hx : ∃ s, point7 s = bs := ⟨s, h⟩
      rw [dif_pos hx]
      exact congrArg some (point7_inj _ _ (hx.choose_spec.trans h.symm))

/-- An interaction that writes a point, asks for a challenge and writes a scalar succeeds. -/
example (hash : Bytes → Bytes) (uniform : Bytes → ZMod 7) :
    ∃ vals st', ([Act.point pt7, .challenge, .scalar 4].mapM (Act.run (enc7 hash uniform)))
      W.init = .ok (vals, st') := by
  obtain ⟨v, s, h, -⟩ := (absorbed_eq (enc7_valid hash uniform)
    [Act.point pt7, .challenge, .scalar 4] W.init).1 (by
      intro a ha p hp
      fin_cases ha
      · cases hp; intro h; cases h
      · cases hp
      · cases hp)
  exact ⟨v, s, h⟩

end Example

end Verif.Transcript
