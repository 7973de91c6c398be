import Verif.Layout.Split
import Verif.Pow5.SpongeModel

/-!
# The calls of the Poseidon gadget are laid out by a planner

A program of `Verif.Region` makes calls in columns of the right kind, at natural offsets, in regions
it has created.
-/

namespace Verif.EndToEnd

open Verif.Cs (Column Kind)
open Verif.Layout
open Verif.Region

variable {C S F α β : Type} {ι : C → Column} {N : ℕ} {H : Prop}

/-- A cell at a natural offset of one of the first `N` regions. -/
def CellOk (N : ℕ) (c : Cell C) : Prop := 0 ≤ c.row ∧ c.reg < N

/-- Whenever the program ends with at most `N` regions, and `H` holds, its calls are calls a planner
lays out, in the first `N` regions, and its result satisfies `Q`. -/
def Makes (ι : C → Column) (N : ℕ) (H : Prop) (x : M C S F α) (Q : α → Prop) : Prop :=
  ∀ n a n' ops, x n = some (a, n', ops) → n ≤ n' ∧
    (H → n' ≤ N → Q a ∧ ∀ op ∈ ops, Typed ι op ∧ home op < N)

theorem Makes.mono {H' : Prop} {x : M C S F α} {Q Q' : α → Prop} (h : Makes ι N H x Q)
    (hH : H' → H) (hQ : ∀ a, H' → Q a → Q' a) : Makes ι N H' x Q' := by
  intro n a n' ops e
  obtain ⟨h1, h2⟩ := h n a n' ops e
  exact ⟨h1, fun h' hn => ⟨hQ a h' (h2 (hH h') hn).1, (h2 (hH h') hn).2⟩⟩

theorem Makes.pure {a : α} {Q : α → Prop} (h : H → Q a) :
    Makes ι N H (Pure.pure a : M C S F α) Q := by
  rintro n _ _ _ ⟨⟩
  exact ⟨le_rfl, fun hH _ => ⟨h hH, by simp⟩⟩

theorem Makes.bind {x : M C S F α} {f : α → M C S F β} {Q : α → Prop} {Q' : β → Prop}
    (h : Makes ι N H x Q) (hf : ∀ a, Makes ι N (H ∧ Q a) (f a) Q') : Makes ι N H (x >>= f) Q' := by
  intro n b n'' ops e
  rw [bind_apply] at e
  rcases hx : x n with _ | ⟨a, n', o⟩
  · simp [hx] at e
  · simp only [hx] at e
    rcases hy : f a n' with _ | ⟨b', n2, o'⟩
    · simp [hy] at e
    · simp only [hy, Option.some.injEq, Prod.mk.injEq] at e
      obtain ⟨rfl, rfl, rfl⟩ := e
      obtain ⟨h1, h2⟩ := h _ _ _ _ hx
      obtain ⟨h3, h4⟩ := hf _ _ _ _ _ hy
      refine ⟨h1.trans h3, fun hH hn => ?_⟩
      obtain ⟨h5, h6⟩ := h2 hH (h3.trans hn)
      obtain ⟨h7, h8⟩ := h4 ⟨hH, h5⟩ hn
      refine ⟨h7, fun op hop => ?_⟩
      rcases List.mem_append.1 hop with hop | hop
      · exact h6 op hop
      · exact h8 op hop

theorem Makes.emit {op : Op C S F} (h : H → Typed ι op ∧ home op < N) :
    Makes ι N H (Region.emit op) fun _ => True := by
  rintro n _ _ _ ⟨⟩
  refine ⟨le_rfl, fun hH _ => ⟨trivial, fun o ho => ?_⟩⟩
  rw [List.mem_singleton.1 ho]
  exact h hH

theorem Makes.unwrap {x : Option α} {Q : α → Prop} (h : H → ∀ a, x = some a → Q a) :
    Makes ι N H (Region.unwrap x : M C S F α) Q := by
  intro n a n' ops e
  rcases x with _ | b
  · simp [Region.unwrap] at e
  · simp only [Region.unwrap, Option.map_some, Option.some.injEq, Prod.mk.injEq] at e
    obtain ⟨rfl, rfl, rfl⟩ := e
    exact ⟨le_rfl, fun hH _ => ⟨h hH _ rfl, by simp⟩⟩

theorem Makes.assignRegion {f : ℕ → M C S F α} {Q : α → Prop}
    (h : ∀ reg, Makes ι N (H ∧ reg < N) (f reg) Q) : Makes ι N H (Region.assignRegion f) Q := by
  intro n a n' ops e
  obtain ⟨h1, h2⟩ := h n (n + 1) a n' ops e
  exact ⟨by omega, fun hH hn => h2 ⟨hH, by omega⟩ hn⟩

theorem Makes.foldlM {l : List β} {f : α → β → M C S F α} {Q : α → Prop} :
    ∀ a, (∀ a, ∀ b ∈ l, Makes ι N (H ∧ Q a) (f a b) Q) → Makes ι N (H ∧ Q a) (l.foldlM f a) Q := by
  induction l with
  | nil => intro a _; exact .pure fun h => h.2
  | cons b l ih =>
    intro a h
    rw [List.foldlM_cons]
    refine .bind (h a b (by simp)) fun a' => ?_
    exact (ih a' fun a b hb => h a b (by simp [hb])).mono (fun h => ⟨h.1.1, h.2⟩) fun _ _ h => h

theorem Makes.tabulate : ∀ {n : ℕ} {f : Fin n → M C S F α} {Q : Fin n → α → Prop},
    (∀ i, Makes ι N H (f i) (Q i)) → Makes ι N H (Region.tabulate n f) fun g => ∀ i, Q i (g i)
  | 0, _, _, _ => .pure fun _ i => i.elim0
  | n + 1, f, Q, h => by
    unfold Region.tabulate
    refine .bind (h 0) fun a => .bind ((Makes.tabulate fun i => h i.succ).mono And.left
      fun _ _ h => h) fun rest => .pure fun hH i => ?_
    refine Fin.cases ?_ (fun j => ?_) i
    · exact hH.1.2
    · exact hH.2 j

theorem Makes.assignAdvice {reg off : ℕ} {c : C} {v : F} (hc : H → (ι c).kind = .advice)
    (hr : H → reg < N) : Makes ι N H (Region.assignAdvice (S := S) reg c off v)
      fun a => CellOk N a.cell :=
  .bind (.emit fun h => ⟨⟨hc h, by simp⟩, hr h⟩) fun _ => .pure fun h => ⟨by simp, hr h.1⟩

theorem Makes.assignFixed {reg off : ℕ} {c : C} {v : F} (hc : H → (ι c).kind = .fixed)
    (hr : H → reg < N) : Makes ι N H (Region.assignFixed (S := S) reg c off v)
      fun a => CellOk N a.cell :=
  .bind (.emit fun h => ⟨⟨hc h, by simp⟩, hr h⟩) fun _ => .pure fun h => ⟨by simp, hr h.1⟩

theorem Makes.constrainEqual {a b : Cell C} (ha : H → CellOk N a) (hb : H → CellOk N b) :
    Makes ι N H (Region.constrainEqual a b : M C S F Unit) fun _ => True :=
  .emit fun h => ⟨⟨(ha h).1, (hb h).1⟩, max_lt (ha h).2 (hb h).2⟩

theorem Makes.enable {s : S} {reg off : ℕ} (hr : H → reg < N) :
    Makes ι N H (Region.enable s reg off : M C S F Unit) fun _ => True :=
  .emit fun h => ⟨by simp [Typed], hr h⟩

theorem Makes.assignAdviceFromConstant {reg off : ℕ} {c : C} {v : F}
    (hc : H → (ι c).kind = .advice) (hr : H → reg < N) :
    Makes ι N H (Region.assignAdviceFromConstant (S := S) reg c off v) fun a => CellOk N a.cell :=
  .bind (.assignAdvice hc hr) fun _ => .bind (.emit fun h => ⟨h.2.1, h.2.2⟩) fun _ =>
    .pure fun h => h.1.2

theorem Makes.copyAdvice {a : ACell C F} {reg off : ℕ} {c : C}
    (hc : H → (ι c).kind = .advice) (hr : H → reg < N) (ha : H → CellOk N a.cell) :
    Makes ι N H (a.copyAdvice (S := S) reg c off) fun a => CellOk N a.cell :=
  .bind (.assignAdvice hc hr) fun _ => .bind (.constrainEqual (fun h => h.2) fun h => ha h.1) fun _ =>
    .pure fun h => h.1.2

/-! ### The Poseidon gadget -/

section

open Verif.Pow5 Verif.Poseidon

variable [Field F] {r : ℕ} {cfg : Config C S r} {P : Spec F (r + 1)}

/-- The columns of the chip are of the right kind: the types of pow5.rs 21-28. -/
structure Kinds (ι : C → Column) (cfg : Config C S r) : Prop where
  state : ∀ i, (ι (cfg.state i)).kind = .advice
  partialSbox : (ι cfg.partialSbox).kind = .advice
  rcA : ∀ i, (ι (cfg.rcA i)).kind = .fixed
  rcB : ∀ i, (ι (cfg.rcB i)).kind = .fixed

/-- Words of the state in cells of the first regions. -/
def WordsOk (N : ℕ) (w : Words C F r) : Prop := ∀ i, CellOk N (w i).cell

variable (hk : Kinds ι cfg)
include hk

theorem makes_round {reg rd off : ℕ} {gate : S} {f : M C S F (State F (r + 1))}
    (hr : H → reg < N) (hf : Makes ι N H f fun _ => True) :
    Makes ι N H (round cfg P reg rd off gate f) (WordsOk N) := by
  unfold round
  refine .bind (.enable hr) fun _ => .bind (Q := fun _ => True) (.unwrap fun _ _ _ => trivial) fun _ =>
    .bind (.tabulate fun i => .assignFixed (fun _ => hk.rcA i) fun h => hr h.1.1) fun _ => .bind
      (hf.mono (fun h => h.1.1.1) fun _ _ h => h) fun _ => ?_
  exact .tabulate fun i => .assignAdvice (fun _ => hk.state i) fun h => hr h.1.1.1.1

theorem makes_fullRound {reg rd off : ℕ} {st : Words C F r} (hr : H → reg < N) :
    Makes ι N H (fullRound cfg P reg rd off st) (WordsOk N) :=
  makes_round hk hr (.bind (Q := fun _ => True) (.unwrap fun _ _ _ => trivial) fun _ =>
    .pure fun _ => trivial)

theorem makes_partialRound {reg rd off : ℕ} {st : Words C F r} (hr : H → reg < N) :
    Makes ι N H (partialRound cfg P reg rd off st) (WordsOk N) :=
  makes_round hk hr (.bind (Q := fun _ => True) (.unwrap fun _ _ _ => trivial) fun _ =>
    .bind (.assignAdvice (fun _ => hk.partialSbox) fun h => hr h.1) fun _ =>
    .bind (Q := fun _ => True) (.unwrap fun _ _ _ => trivial) fun _ =>
    .bind (.tabulate fun i => .assignFixed (fun _ => hk.rcB i) fun h => hr h.1.1.1) fun _ =>
    .pure fun _ => trivial)

theorem makes_load {reg : ℕ} {st : Words C F r} (hr : H → reg < N) (hs : H → WordsOk N st) :
    Makes ι N H (load cfg reg st) (WordsOk N) :=
  .tabulate fun i => .copyAdvice (fun _ => hk.state i) hr fun h => hs h i

theorem makes_permute {st : Words C F r} (hs : H → WordsOk N st) :
    Makes ι N H (permute cfg P st) (WordsOk N) :=
  .assignRegion fun _ => .bind (makes_load hk (fun h => h.2) fun h => hs h.1) fun _ =>
    .bind (.foldlM _ fun _ _ _ => makes_fullRound hk fun h => h.1.2) fun _ =>
    .bind (.foldlM _ fun _ _ _ => makes_partialRound hk fun h => h.1.1.2) fun _ =>
    .foldlM _ fun _ _ _ => makes_fullRound hk fun h => h.1.1.1.2

theorem makes_initialState {cap : F} :
    Makes ι N H (initialState cfg cap) (WordsOk N) :=
  .assignRegion fun _ => .tabulate fun i => .assignAdviceFromConstant (fun _ => hk.state i) fun h => h.2

/-- A word of the message in a cell of the first regions. -/
def WordOk (N : ℕ) : PaddedWord C F → Prop
  | .message a => CellOk N a.cell
  | .padding _ => True

theorem makes_loadInput {reg : ℕ} {i : Fin r} {w : Option (PaddedWord C F)} (hr : H → reg < N)
    (hw : H → ∀ x, w = some x → WordOk N x) :
    Makes ι N H (loadInput cfg reg i w) fun a => CellOk N a.cell := by
  rcases w with _ | ⟨a | v⟩
  · exact .unwrap fun _ _ h => by cases h
  · exact .bind (.assignAdvice (fun _ => hk.state _) hr) fun _ =>
      .bind (.constrainEqual (fun h => hw h.1 _ rfl) fun h => h.2) fun _ => .pure fun h => h.1.2
  · exact .bind (.assignFixed (fun _ => hk.rcB _) hr) fun _ =>
      .bind (.assignAdvice (fun _ => hk.state _) fun h => hr h.1) fun _ =>
      .bind (.constrainEqual (fun h => h.1.2) fun h => h.2) fun _ => .pure fun h => h.1.2

theorem makes_addInput {st : Words C F r} {input : List (Option (PaddedWord C F))}
    (hs : H → WordsOk N st) (hw : H → ∀ x, some x ∈ input → WordOk N x) :
    Makes ι N H (addInput cfg st input) (WordsOk N) := by
  refine .assignRegion fun _ => .bind (.enable fun h => h.2) fun _ =>
    .bind (makes_load hk (fun h => h.1.2) fun h => hs h.1.1) fun _ =>
    .bind (Q := fun _ => True) ((Makes.tabulate (Q := fun _ a => CellOk N a.cell) fun i =>
      makes_loadInput hk (fun h => h.1.1.2) fun h x hx => hw h.1.1.1 x ?_).mono id
      fun _ _ _ => trivial) fun _ =>
    .tabulate fun i => .assignAdvice (fun _ => hk.state i) fun h => h.1.1.1.2
  by_cases hi : i.1 < input.length
  · rw [List.getD_eq_getElem _ _ hi] at hx
    exact hx ▸ List.getElem_mem hi
  · rw [List.getD_eq_default _ _ (by omega)] at hx
    cases hx

theorem makes_sponge {st : Words C F r} {input : Option (List (Option (PaddedWord C F)))}
    (hs : H → WordsOk N st) (hw : H → ∀ l, input = some l → ∀ x, some x ∈ l → WordOk N x) :
    Makes ι N H (Pow5.poseidonSponge cfg P st input) fun p =>
      WordsOk N p.1 ∧ ∀ x, some x ∈ p.2 → CellOk N x.cell := by
  unfold Pow5.poseidonSponge
  have hout : ∀ st' : Words C F r, Makes ι N (H ∧ WordsOk N st')
      (do let state ← Pow5.permute cfg P st'; pure (state, getOutput state)) fun p =>
      WordsOk N p.1 ∧ ∀ x, some x ∈ p.2 → CellOk N x.cell := fun st' =>
    .bind (makes_permute hk fun h => h.2) fun st'' => .pure fun h => ⟨h.2, fun x hx => by
      obtain ⟨i, hi⟩ := (List.mem_ofFn' _ _).1 hx
      cases hi
      exact h.2 _⟩
  rcases input with _ | l
  · exact .bind (.pure hs) hout
  · exact .bind (makes_addInput hk hs fun h => hw h l rfl) hout

/-- The state of an absorbing sponge. -/
def AbsorbOk (N : ℕ) (s : Absorb C F r) : Prop :=
  WordsOk N s.state ∧ ∀ x, some x ∈ s.mode → WordOk N x

omit hk in
theorem absorbBuf_mem {T : Type} {v : T} : ∀ {l m : List (Option T)}, absorbBuf l v = some m →
    ∀ x, some x ∈ m → some x ∈ l ∨ x = v := by
  intro l
  induction l with
  | nil => intro m h; simp [absorbBuf] at h
  | cons a l ih =>
    intro m h x hx
    rcases a with _ | a
    · simp only [absorbBuf, Option.some.injEq] at h
      subst h
      rcases List.mem_cons.1 hx with hx | hx
      · exact .inr (Option.some.inj hx)
      · exact .inl (by simp [hx])
    · simp only [absorbBuf, Option.map_eq_some_iff] at h
      obtain ⟨m', h', rfl⟩ := h
      rcases List.mem_cons.1 hx with hx | hx
      · exact .inl (by simp [hx])
      · exact (ih h' x hx).imp (fun h => by simp [h]) id

theorem makes_absorb {s : Absorb C F r} {v : PaddedWord C F} (hv : H → WordOk N v) :
    Makes ι N (H ∧ AbsorbOk N s) (Absorb.absorb cfg P s v) (AbsorbOk N) := by
  unfold Absorb.absorb
  rcases hb : absorbBuf s.mode v with _ | m
  · refine .bind (makes_sponge hk (fun h => h.2.1) fun h l hl x hx => ?_) fun p =>
      .bind (Q := fun m => ∀ x, some x ∈ m → WordOk N x) (.unwrap fun h m hm x hx => ?_) fun m =>
      .pure fun h => ⟨h.1.2.1, h.2⟩
    · cases hl
      exact h.2.2 x hx
    · rcases absorbBuf_mem hm x hx with hx | rfl
      · simp [List.mem_replicate] at hx
      · exact hv h.1.1
  · refine .pure fun h => ⟨h.2.1, fun x hx => ?_⟩
    rcases absorbBuf_mem hb x hx with hx | rfl
    · exact h.2.2 x hx
    · exact hv h.1

omit hk in
theorem squeezeBuf_mem {T : Type} {v : T} : ∀ {l m : List (Option T)}, squeezeBuf l = some (v, m) →
    some v ∈ l := by
  intro l
  induction l with
  | nil => intro m h; simp [squeezeBuf] at h
  | cons a l ih =>
    intro m h
    rcases a with _ | a
    · simp only [squeezeBuf, Option.map_eq_some_iff, Prod.mk.injEq] at h
      obtain ⟨⟨v', m'⟩, h1, rfl, -⟩ := h
      exact List.mem_cons_of_mem _ (ih h1)
    · simp only [squeezeBuf, Option.some.injEq, Prod.mk.injEq] at h
      simp [h.1]

theorem makes_hash {msg : List (ACell C F)} (hm : H → ∀ a ∈ msg, CellOk N a.cell) :
    Makes ι N H (Pow5.hash cfg P msg) fun a => CellOk N a.cell := by
  unfold Pow5.hash
  refine .bind (Q := AbsorbOk N) (.bind (makes_initialState hk) fun st => .pure fun h => ⟨h.2, ?_⟩)
    fun s => .bind (Q := fun _ => True) (.unwrap fun _ _ _ => trivial) fun pad =>
    .bind ((Makes.foldlM (H := H ∧ True) s fun s v hv => makes_absorb hk fun h => ?_).mono
      (fun h => ⟨⟨h.1.1, trivial⟩, h.1.2⟩) fun _ _ h => h) fun s =>
    .bind (Q := fun q : Squeeze C F r => WordsOk N q.state ∧ ∀ x, some x ∈ q.mode → CellOk N x.cell)
      (.bind (makes_sponge hk (fun h => h.2.1) fun h l hl x hx => ?_) fun p => .pure fun h => h.2)
      fun q => .bind (Q := fun p => CellOk N p.1.cell) ?_ fun p => .pure fun h => h.2
  · intro x hx
    simp [List.mem_replicate] at hx
  · rcases List.mem_append.1 hv with hv | hv
    · obtain ⟨a, ha, rfl⟩ := List.mem_map.1 hv
      exact hm h.1 a ha
    · obtain ⟨a, ha, rfl⟩ := List.mem_map.1 hv
      trivial
  · cases hl
    exact h.2.2 x hx
  · unfold Squeeze.squeeze
    rcases hb : squeezeBuf q.mode with _ | ⟨v, m⟩
    · refine .bind (makes_sponge hk (fun h => h.2.1) fun _ _ h => by cases h) fun p =>
        .bind (Q := fun p => CellOk N p.1.cell) (.unwrap fun h p hp => ?_) fun p => .pure fun h => h.2
      exact h.2.2 _ (squeezeBuf_mem hp)
    · exact .pure fun h => h.2.2 _ (squeezeBuf_mem hb)

end

end Verif.EndToEnd
