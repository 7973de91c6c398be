import Verif.Evaluator.Model
import Verif.Rotation.Props
import Verif.Domain.Props

/-!
# C10: the expression evaluator

Specification: `denote`, the polynomial an `Ast` stands for when leaf `i` stands for the
polynomial `P i`, a rotated leaf for `P i (ω^r·X)`.
-/

namespace Verif.Evaluator

open Verif.Domain (Domain evalsOn)
open Verif.Fft Verif.PolyArith Polynomial
open Verif.Multicore (chunks)

variable {F : Type*} [Field F]

mutual
/-- Specification: the polynomial an expression stands for. -/
noncomputable def denote (w : F) (P : ℕ → F[X]) : Ast F → F[X]
  | .poly i r => (P i).comp (C (w ^ r) * X)
  | .add a b => denote w P a + denote w P b
  | .mul a b => denote w P a * denote w P b
  | .scale a s => denote w P a * C s
  | .distributePowers ts base => denotePowers w P base 0 ts
  | .linearTerm s => C s * X
  | .constantTerm s => C s

/-- Horner accumulation, first term highest. -/
noncomputable def denotePowers (w : F) (P : ℕ → F[X]) (base : F) (acc : F[X]) :
    List (Ast F) → F[X]
  | [] => acc
  | t :: ts => denotePowers w P base (acc * C base + denote w P t) ts
end

mutual
/-- Specification: leaves refer to registered polynomials and rotate by at most `n`. -/
def LeavesOk (numPolys n : ℕ) : Ast F → Prop
  | .poly i r => i < numPolys ∧ r.natAbs ≤ n
  | .add a b => LeavesOk numPolys n a ∧ LeavesOk numPolys n b
  | .mul a b => LeavesOk numPolys n a ∧ LeavesOk numPolys n b
  | .scale a _ => LeavesOk numPolys n a
  | .distributePowers ts _ => LeavesOkList numPolys n ts
  | .linearTerm _ => True
  | .constantTerm _ => True

/-- All terms. -/
def LeavesOkList (numPolys n : ℕ) : List (Ast F) → Prop
  | [] => True
  | t :: ts => LeavesOk numPolys n t ∧ LeavesOkList numPolys n ts
end

mutual
/-- Pointwise value of an expression at an index, given the values of the leaves, of linear and
of constant terms. -/
def pw (leaf : ℕ → ℤ → ℕ → F) (lin con : F → ℕ → F) : Ast F → ℕ → F
  | .poly i r, t => leaf i r t
  | .add a b, t => pw leaf lin con a t + pw leaf lin con b t
  | .mul a b, t => pw leaf lin con a t * pw leaf lin con b t
  | .scale a s, t => pw leaf lin con a t * s
  | .distributePowers ts base, t => pwPowers leaf lin con base (con 0 t) ts t
  | .linearTerm s, t => lin s t
  | .constantTerm s, t => con s t

/-- Terms of a `DistributePowers`. -/
def pwPowers (leaf : ℕ → ℤ → ℕ → F) (lin con : F → ℕ → F) (base : F) (acc : F) :
    List (Ast F) → ℕ → F
  | [], _ => acc
  | a :: as, t => pwPowers leaf lin con base (acc * base + pw leaf lin con a t) as t
end

theorem zipUpdate_tab (op : F → F → F) (m : ℕ) (f g : ℕ → F) :
    zipUpdate op (tab m f) (tab m g) = tab m fun i => op (f i) (g i) := by
  induction m generalizing f g with
  | zero => rfl
  | succ m ih => rw [tab_succ, tab_succ, tab_succ, zipUpdate, ih]

theorem scanMul_eq (w : F) (m : ℕ) (acc : F) : scanMul w m acc = tab m fun t => acc * w ^ t := by
  induction m generalizing acc with
  | zero => rfl
  | succ m ih =>
    rw [scanMul, ih, tab_succ]
    simp only [pow_zero, mul_one, List.cons.injEq, true_and]
    exact tab_congr fun i _ => by rw [pow_succ]; ring

/-- What a chunk must contain. -/
def Piece (N size idx : ℕ) (f : ℕ → F) : List F :=
  tab (min size (N - size * idx)) fun t => f (size * idx + t)

mutual
/-- An expression whose leaves and linear terms produce the right chunks. -/
def BaseOk (c : Ctx F) (leaf : ℕ → ℤ → ℕ → F) (lin : F → ℕ → F) : Ast F → Prop
  | .poly i r => (c.polys[i]?).bind (fun p => chunkOfRotated c.basis c.domain c.size c.idx p r)
      = some (Piece c.polyLen c.size c.idx (leaf i r))
  | .add a b => BaseOk c leaf lin a ∧ BaseOk c leaf lin b
  | .mul a b => BaseOk c leaf lin a ∧ BaseOk c leaf lin b
  | .scale a _ => BaseOk c leaf lin a
  | .distributePowers ts _ => BaseOkList c leaf lin ts
  | .linearTerm s => linearTerm c.basis c.domain c.zeta c.polyLen c.size c.idx s
      = some (Piece c.polyLen c.size c.idx (lin s))
  | .constantTerm _ => True

/-- All terms. -/
def BaseOkList (c : Ctx F) (leaf : ℕ → ℤ → ℕ → F) (lin : F → ℕ → F) : List (Ast F) → Prop
  | [] => True
  | t :: ts => BaseOk c leaf lin t ∧ BaseOkList c leaf lin ts
end

mutual
theorem recurse_eq (c : Ctx F) (leaf : ℕ → ℤ → ℕ → F) (lin con : F → ℕ → F)
    (hcon : ∀ s, constantTerm c.basis c.polyLen c.size c.idx s
      = some (Piece c.polyLen c.size c.idx (con s))) :
    ∀ a : Ast F, BaseOk c leaf lin a →
      recurse c a = some (Piece c.polyLen c.size c.idx (pw leaf lin con a))
  | .poly i r, h => by simpa only [recurse, pw, BaseOk] using h
  | .add a b, h => by
    simp only [BaseOk] at h
    simp only [recurse, recurse_eq c leaf lin con hcon a h.1, recurse_eq c leaf lin con hcon b h.2,
      Option.bind_some, Option.map_some, Piece, zipUpdate_tab, pw]
  | .mul a b, h => by
    simp only [BaseOk] at h
    simp only [recurse, recurse_eq c leaf lin con hcon a h.1, recurse_eq c leaf lin con hcon b h.2,
      Option.bind_some, Option.map_some, Piece, zipUpdate_tab, pw]
  | .scale a s, h => by
    simp only [BaseOk] at h
    simp only [recurse, recurse_eq c leaf lin con hcon a h, Option.map_some, Piece, pw, tab,
      List.map_map, Function.comp_def]
  | .distributePowers ts base, h => by
    simp only [BaseOk] at h
    simp only [recurse, hcon, Option.bind_some, Piece, pw]
    exact recurseTerms_eq c leaf lin con hcon base (con 0) ts h
  | .linearTerm s, h => by simpa only [recurse, pw, BaseOk] using h
  | .constantTerm s, _ => by simp only [recurse, pw, hcon]

theorem recurseTerms_eq (c : Ctx F) (leaf : ℕ → ℤ → ℕ → F) (lin con : F → ℕ → F)
    (hcon : ∀ s, constantTerm c.basis c.polyLen c.size c.idx s
      = some (Piece c.polyLen c.size c.idx (con s))) (base : F) (acc : ℕ → F) :
    ∀ ts : List (Ast F), BaseOkList c leaf lin ts →
      recurseTerms c base (Piece c.polyLen c.size c.idx acc) ts
        = some (Piece c.polyLen c.size c.idx fun t => pwPowers leaf lin con base (acc t) ts t)
  | [], _ => by simp only [recurseTerms, pwPowers]
  | t :: ts, h => by
    simp only [BaseOkList] at h
    have := recurseTerms_eq c leaf lin con hcon base
      (fun i => acc i * base + pw leaf lin con t i) ts h.2
    simp only [recurseTerms, recurse_eq c leaf lin con hcon t h.1, Option.bind_some, Piece,
      zipUpdate_tab, pwPowers] at this ⊢
    exact this
end

theorem chunkParams_some {threads N : ℕ} (ht : threads ≠ 0) (hN : N ≠ 0) :
    ∃ size, chunkParams threads N = some size ∧ size ≠ 0 ∧
      (size = 1 ↔ N ≤ threads * 4) := by
  have hpos : 0 < threads * 4 := by omega
  have h1 : (N + threads * 4 - 1) / (threads * 4) ≠ 0 := by
    have : 1 ≤ (N + threads * 4 - 1) / (threads * 4) := by
      rw [Nat.le_div_iff_mul_le hpos]; omega
    omega
  refine ⟨(N + threads * 4 - 1) / (threads * 4), ?_, h1, ?_⟩
  · simp only [chunkParams, h1, if_false, ht, Nat.mul_eq_zero, or_false, OfNat.ofNat_ne_zero]
  · constructor
    · intro h
      have := Nat.lt_mul_div_succ (N + threads * 4 - 1) hpos
      rw [h] at this; omega
    · intro h
      have : (N + threads * 4 - 1) / (threads * 4) < 2 := by
        rw [Nat.div_lt_iff_lt_mul hpos]; omega
      generalize (N + threads * 4 - 1) / (threads * 4) = q at *
      omega

theorem mapM_eq_some {α β : Type*} {f : α → Option β} {g : α → β} :
    ∀ l : List α, (∀ x ∈ l, f x = some (g x)) → l.mapM f = some (l.map g)
  | [], _ => rfl
  | x :: xs, h => by
    rw [List.mapM_cons, h x (by simp), mapM_eq_some xs fun y hy => h y (by simp [hy])]
    rfl

/-- Evaluating chunk by chunk puts together the pointwise values. -/
theorem evaluate_eq (threads : ℕ) (ht : threads ≠ 0) (b : Basis) (d : Domain F) (zeta : F)
    (polys : List (List F)) (hp : polys ≠ []) (hN : basisLen b d ≠ 0)
    (hlen : ∀ p ∈ polys, p.length = basisLen b d)
    (leaf : ℕ → ℤ → ℕ → F) (lin con : F → ℕ → F) (a : Ast F)
    (hcon : ∀ size idx s, size ≠ 0 → size * idx < basisLen b d →
      constantTerm b (basisLen b d) size idx s = some (Piece (basisLen b d) size idx (con s)))
    (hbase : ∀ size idx, size ≠ 0 → (size = 1 ↔ basisLen b d ≤ threads * 4) →
      size * idx < basisLen b d → BaseOk ⟨b, d, zeta, basisLen b d, size, idx, polys⟩ leaf lin a) :
    evaluate threads b d zeta polys a = some (tab (basisLen b d) (pw leaf lin con a)) := by
  obtain ⟨p0, ps, rfl⟩ := List.exists_cons_of_ne_nil hp
  have hp0 : p0.length = basisLen b d := hlen p0 (by simp)
  obtain ⟨size, hsz, hs0, hs1⟩ := chunkParams_some ht hN
  simp only [evaluate, List.head?_cons, Option.bind_some, hp0, hsz]
  generalize hNN : basisLen b d = N at *
  have key : ∀ x ∈ (chunks size (List.replicate N (0 : F))).zipIdx,
      ((recurse ⟨b, d, zeta, N, size, x.2, p0 :: ps⟩ a).bind fun r =>
        if r.length = x.1.length then some r else none)
      = some (x.1.mapIdx fun i _ => pw leaf lin con a (x.2 * size + i)) := by
    rintro ⟨out, idx⟩ hx
    have hget : (chunks size (List.replicate N (0 : F)))[idx]? = some out := by
      have := List.mem_zipIdx_iff_getElem?.1 hx
      simpa using this
    have hout := Verif.Multicore.parallelize_pieces hs0 _ idx out hget
    have hne := (Verif.Multicore.chunks_length_le hs0 _ out (List.mem_of_getElem? hget)).2
    have hol : out.length = min size (N - size * idx) := by
      rw [hout]; simp [mul_comm]
    have hlt : size * idx < N := by
      have := List.length_pos_of_ne_nil hne
      omega
    rw [recurse_eq _ leaf lin con (fun s => hcon size idx s hs0 hlt) a
      (hbase size idx hs0 hs1 hlt)]
    simp only [Option.bind_some, Piece, length_tab, hol, if_true]
    congr 1
    apply List.ext_getElem
    · simp [hol]
    · intro i h1 h2
      simp [tab, mul_comm]
  have hmap := mapM_eq_some _ key
  have hf := Verif.Multicore.mapIdx_chunks hs0 (fun i (_ : F) => pw leaf lin con a i)
    (List.replicate N (0 : F)) 0
  simp only [zero_mul, zero_add] at hf
  rw [hmap, Option.map_some, hf]
  congr 1
  apply List.ext_getElem
  · simp
  · intro i h1 h2; simp [tab]

mutual
theorem pw_eq_eval (w : F) (P : ℕ → F[X]) (c v : F) (np n N : ℕ)
    (leaf : ℕ → ℤ → ℕ → F) (lin con : F → ℕ → F)
    (hleaf : ∀ i r t, i < np → r.natAbs ≤ n → t < N →
      leaf i r t = (P i).eval (w ^ r * (c * v ^ t)))
    (hlin : ∀ s t, lin s t = s * (c * v ^ t)) (hcon : ∀ s t, con s t = s) :
    ∀ (a : Ast F), LeavesOk np n a → ∀ t < N,
      pw leaf lin con a t = (denote w P a).eval (c * v ^ t)
  | .poly i r, h, t, ht => by
    simp only [LeavesOk] at h
    simp [pw, denote, hleaf i r t h.1 h.2 ht]
  | .add a b, h, t, ht => by
    simp only [LeavesOk] at h
    simp [pw, denote, pw_eq_eval w P c v np n N leaf lin con hleaf hlin hcon a h.1 t ht,
      pw_eq_eval w P c v np n N leaf lin con hleaf hlin hcon b h.2 t ht]
  | .mul a b, h, t, ht => by
    simp only [LeavesOk] at h
    simp [pw, denote, pw_eq_eval w P c v np n N leaf lin con hleaf hlin hcon a h.1 t ht,
      pw_eq_eval w P c v np n N leaf lin con hleaf hlin hcon b h.2 t ht]
  | .scale a s, h, t, ht => by
    simp only [LeavesOk] at h
    simp [pw, denote, pw_eq_eval w P c v np n N leaf lin con hleaf hlin hcon a h t ht]
  | .distributePowers ts base, h, t, ht => by
    simp only [LeavesOk] at h
    simp only [pw, denote, hcon]
    rw [pwPowers_eq_eval w P c v np n N leaf lin con hleaf hlin hcon base 0 0 ts h t ht (by simp)]
  | .linearTerm s, _, t, _ => by simp [pw, denote, hlin]
  | .constantTerm s, _, t, _ => by simp [pw, denote, hcon]

theorem pwPowers_eq_eval (w : F) (P : ℕ → F[X]) (c v : F) (np n N : ℕ)
    (leaf : ℕ → ℤ → ℕ → F) (lin con : F → ℕ → F)
    (hleaf : ∀ i r t, i < np → r.natAbs ≤ n → t < N →
      leaf i r t = (P i).eval (w ^ r * (c * v ^ t)))
    (hlin : ∀ s t, lin s t = s * (c * v ^ t)) (hcon : ∀ s t, con s t = s)
    (base acc : F) (accP : F[X]) :
    ∀ (ts : List (Ast F)), LeavesOkList np n ts → ∀ t < N, acc = accP.eval (c * v ^ t) →
      pwPowers leaf lin con base acc ts t
        = (denotePowers w P base accP ts).eval (c * v ^ t)
  | [], _, t, _, hacc => by simpa [pwPowers, denotePowers] using hacc
  | a :: as, h, t, ht, hacc => by
    simp only [LeavesOkList] at h
    simp only [pwPowers, denotePowers]
    apply pwPowers_eq_eval w P c v np n N leaf lin con hleaf hlin hcon base _ _ as h.2 t ht
    simp [hacc, pw_eq_eval w P c v np n N leaf lin con hleaf hlin hcon a h.1 t ht]
end

mutual
theorem baseOk_of_leaves (c : Ctx F) (leaf : ℕ → ℤ → ℕ → F) (lin : F → ℕ → F) (np n : ℕ)
    (hleaf : ∀ i r, i < np → r.natAbs ≤ n →
      (c.polys[i]?).bind (fun p => chunkOfRotated c.basis c.domain c.size c.idx p r)
        = some (Piece c.polyLen c.size c.idx (leaf i r)))
    (hlin : ∀ s, linearTerm c.basis c.domain c.zeta c.polyLen c.size c.idx s
      = some (Piece c.polyLen c.size c.idx (lin s))) :
    ∀ a : Ast F, LeavesOk np n a → BaseOk c leaf lin a
  | .poly i r, h => by simp only [LeavesOk] at h; simpa only [BaseOk] using hleaf i r h.1 h.2
  | .add a b, h => by
    simp only [LeavesOk] at h; simp only [BaseOk]
    exact ⟨baseOk_of_leaves c leaf lin np n hleaf hlin a h.1,
      baseOk_of_leaves c leaf lin np n hleaf hlin b h.2⟩
  | .mul a b, h => by
    simp only [LeavesOk] at h; simp only [BaseOk]
    exact ⟨baseOk_of_leaves c leaf lin np n hleaf hlin a h.1,
      baseOk_of_leaves c leaf lin np n hleaf hlin b h.2⟩
  | .scale a _, h => by
    simp only [LeavesOk] at h; simp only [BaseOk]
    exact baseOk_of_leaves c leaf lin np n hleaf hlin a h
  | .distributePowers ts _, h => by
    simp only [LeavesOk] at h; simp only [BaseOk]
    exact baseOkList_of_leaves c leaf lin np n hleaf hlin ts h
  | .linearTerm s, _ => by simpa only [BaseOk] using hlin s
  | .constantTerm _, _ => by simp only [BaseOk]

theorem baseOkList_of_leaves (c : Ctx F) (leaf : ℕ → ℤ → ℕ → F) (lin : F → ℕ → F) (np n : ℕ)
    (hleaf : ∀ i r, i < np → r.natAbs ≤ n →
      (c.polys[i]?).bind (fun p => chunkOfRotated c.basis c.domain c.size c.idx p r)
        = some (Piece c.polyLen c.size c.idx (leaf i r)))
    (hlin : ∀ s, linearTerm c.basis c.domain c.zeta c.polyLen c.size c.idx s
      = some (Piece c.polyLen c.size c.idx (lin s))) :
    ∀ ts : List (Ast F), LeavesOkList np n ts → BaseOkList c leaf lin ts
  | [], _ => by simp only [BaseOkList]
  | a :: as, h => by
    simp only [LeavesOkList] at h; simp only [BaseOkList]
    exact ⟨baseOk_of_leaves c leaf lin np n hleaf hlin a h.1,
      baseOkList_of_leaves c leaf lin np n hleaf hlin as h.2⟩
end

/-- A chunk of a rotated list, as a `Piece`. -/
theorem piece_of_rotation {v : List F} {r : ℤ} {out : List F}
    (h : Verif.Rotation.IsRotation v r out) (size idx : ℕ) :
    (out.drop (size * idx)).take size
      = Piece v.length size idx fun t => v.getD (((t : ℤ) + r) % v.length).toNat 0 := by
  apply tab_ext
  · simp [h.1]
  · intro i hi
    simp only [List.length_take, List.length_drop, h.1] at hi
    have hlt : size * idx + i < v.length := by omega
    have hg := h.2 (size * idx + i) hlt
    have hl : size * idx + i < out.length := by rw [h.1]; exact hlt
    rw [List.getElem?_eq_getElem hl] at hg
    simp only [List.getElem_take, List.getElem_drop, List.getD_eq_getElem?_getD]
    rw [← hg]; rfl

theorem getD_evalsOn (c w : F) (m : ℕ) (p : F[X]) {i : ℕ} (h : i < m) :
    (evalsOn c w m p).getD i 0 = p.eval (c * w ^ i) := by
  rw [List.getD_eq_getElem _ _ (by simpa [evalsOn] using h)]
  simp [evalsOn]

theorem pow_emod {w : F} {N : ℕ} (hN : 0 < N) (hw : w ^ N = 1) (z : ℤ) :
    w ^ (z % N).toNat = w ^ z := by
  have h0 : w ≠ 0 := by rintro rfl; rw [zero_pow (by omega)] at hw; exact zero_ne_one hw
  conv_rhs => rw [← Int.mul_ediv_add_emod z N]
  rw [zpow_add₀ h0, zpow_mul, zpow_natCast, hw, one_zpow, one_mul, ← zpow_natCast,
    Int.toNat_of_nonneg (Int.emod_nonneg _ (by omega))]

theorem constantTerm_eval (b : Basis) (hb : b ≠ .coeff) (N size idx : ℕ) (s : F)
    (h : size * idx ≤ N) :
    constantTerm b N size idx s = some (Piece N size idx fun _ => s) := by
  unfold constantTerm
  rw [if_neg (by omega)]
  cases b <;> simp_all [Piece, tab]

/-- C10: in the Lagrange basis, the result is the list of values of the denoted polynomial on
the domain, whatever the thread count. -/
theorem evaluate_lagrange {d : Domain F} (hd : d.Valid) (threads : ℕ) (ht : threads ≠ 0) (zeta : F)
    (polys : List (List F)) (hp : polys ≠ []) (P : ℕ → F[X])
    (hP : ∀ i p, polys[i]? = some p → p = evalsOn 1 d.omega d.n (P i)) (a : Ast F)
    (ha : LeavesOk polys.length d.n a) :
    evaluate threads .lagrange d zeta polys a
      = some (evalsOn 1 d.omega d.n (denote d.omega P a)) := by
  have hn0 : 0 < d.n := by rw [hd.n_eq]; positivity
  have hw0 : d.omega ≠ 0 := hd.omega_prim.ne_zero (by positivity)
  have hwn : d.omega ^ d.n = 1 := by rw [hd.n_eq]; exact hd.omega_prim.pow_eq_one
  have hlen : ∀ (i : ℕ) (p : List F), polys[i]? = some p → p.length = d.n := by
    intro i p h; rw [hP i p h]; simp [evalsOn]
  let leaf : ℕ → ℤ → ℕ → F := fun i r t =>
    (polys.getD i []).getD (((t : ℤ) + r) % d.n).toNat 0
  have hmain := evaluate_eq threads ht .lagrange d zeta polys hp (by simpa [basisLen] using hn0.ne')
    (by
      intro p hp
      obtain ⟨i, hi⟩ := List.getElem?_of_mem hp
      exact hlen i p hi)
    leaf (fun s t => s * (1 * d.omega ^ t)) (fun s _ => s) a
    (by
      intro size idx s _ hlt
      exact constantTerm_eval _ (by decide) _ _ _ s hlt.le)
    (by
      intro size idx hs _ hlt
      simp only [basisLen] at hlt ⊢
      apply baseOk_of_leaves _ _ _ polys.length d.n _ _ a ha
      · intro i r hi hr
        have hgi : polys[i]? = some polys[i] := List.getElem?_eq_getElem hi
        have hl : polys[i].length = d.n := hlen i _ hgi
        simp only [hgi, Option.bind_some, chunkOfRotated]
        rw [Verif.Rotation.chunkOfRotated_eq _ _ _ _ (by rw [hl]; omega)]
        rcases hro : Verif.Rotation.rotate polys[i] r with _ | out
        · have := ((Verif.Rotation.rotate_spec polys[i] r).2).1 hro
          omega
        · rw [Option.map_some,
            piece_of_rotation ((Verif.Rotation.rotate_spec _ _).1 out hro) size idx, hl]
          congr 1
          unfold Piece
          apply tab_congr
          intro t _
          simp only [leaf, List.getD_eq_getElem?_getD, hgi, Option.getD_some]
      · intro s
        simp only [linearTerm]
        rw [if_neg (by omega), scanMul_eq]
        congr 1
        apply tab_congr
        intro t _
        dsimp only
        rw [pow_add]; ring)
  rw [hmain]
  congr 1
  simp only [basisLen, evalsOn]
  apply tab_congr
  intro t htn
  apply pw_eq_eval d.omega P 1 d.omega polys.length d.n d.n _ _ _ _ (fun s t => rfl)
    (fun s t => rfl) a ha t htn
  intro i r t hi hr htn
  have hgi : polys[i]? = some polys[i] := List.getElem?_eq_getElem hi
  have hmod : ((((t : ℤ) + r) % d.n).toNat) < d.n := by
    have := Int.emod_lt_of_pos ((t : ℤ) + r) (show (0 : ℤ) < d.n by omega)
    omega
  simp only [leaf, List.getD_eq_getElem _ _ hi, hP i _ hgi]
  rw [getD_evalsOn _ _ _ _ hmod, pow_emod hn0 hwn, zpow_add₀ hw0, zpow_natCast]
  congr 1; ring

/-- C10: in the extended basis, the result is the list of values of the denoted polynomial on
the zeta-coset of the extended domain, whatever the thread count. -/
theorem evaluate_extended {d : Domain F} (hd : d.Valid) (threads : ℕ) (ht : threads ≠ 0)
    (polys : List (List F)) (hp : polys ≠ []) (P : ℕ → F[X])
    (hP : ∀ i p, polys[i]? = some p →
      p = evalsOn d.gCoset d.extendedOmega d.extendedLen (P i)) (a : Ast F)
    (ha : LeavesOk polys.length d.n a) :
    evaluate threads .extended d d.gCoset polys a
      = some (evalsOn d.gCoset d.extendedOmega d.extendedLen (denote d.omega P a)) := by
  have hN0 : 0 < d.extendedLen := by unfold Domain.extendedLen; positivity
  have hw0 : d.extendedOmega ≠ 0 := hd.ext_prim.ne_zero (by positivity)
  have hwn : d.extendedOmega ^ d.extendedLen = 1 := hd.ext_prim.pow_eq_one
  have hlen : ∀ (i : ℕ) (p : List F), polys[i]? = some p → p.length = d.extendedLen := by
    intro i p h; rw [hP i p h]; simp [evalsOn]
  have hprod : d.n * 2 ^ (d.extendedK - d.k) = d.extendedLen := by
    rw [hd.n_eq, ← pow_add]; unfold Domain.extendedLen; congr 1; have := hd.k_le; omega
  let leaf : ℕ → ℤ → ℕ → F := fun i r t =>
    (polys.getD i []).getD (((t : ℤ) + r * 2 ^ (d.extendedK - d.k)) % d.extendedLen).toNat 0
  have hmain := evaluate_eq threads ht .extended d d.gCoset polys hp
    (by simpa [basisLen] using hN0.ne')
    (by
      intro p hp
      obtain ⟨i, hi⟩ := List.getElem?_of_mem hp
      exact hlen i p hi)
    leaf (fun s t => s * (d.gCoset * d.extendedOmega ^ t)) (fun s _ => s) a
    (by
      intro size idx s _ hlt
      exact constantTerm_eval _ (by decide) _ _ _ s hlt.le)
    (by
      intro size idx hs _ hlt
      simp only [basisLen] at hlt ⊢
      apply baseOk_of_leaves _ _ _ polys.length d.n _ _ a ha
      · intro i r hi hr
        have hgi : polys[i]? = some polys[i] := List.getElem?_eq_getElem hi
        have hl : polys[i].length = d.extendedLen := hlen i _ hgi
        simp only [hgi, Option.bind_some, chunkOfRotated]
        rw [Verif.Rotation.chunkOfRotatedExtended_eq _ _ _ _ _ (by rw [hl]; omega)]
        rcases hro : Verif.Rotation.rotateExtended d polys[i] r with _ | out
        · have := ((Verif.Rotation.rotateExtended_spec d polys[i] r).2).1 hro
          have h2 : r.natAbs * 2 ^ (d.extendedK - d.k) ≤ d.n * 2 ^ (d.extendedK - d.k) :=
            Nat.mul_le_mul_right _ hr
          omega
        · rw [Option.map_some,
            piece_of_rotation ((Verif.Rotation.rotateExtended_spec _ _ _).1 out hro) size idx, hl]
          congr 1
          unfold Piece
          apply tab_congr
          intro t _
          simp only [leaf, List.getD_eq_getElem?_getD, hgi, Option.getD_some]
      · intro s
        simp only [linearTerm]
        rw [if_neg (by omega), scanMul_eq]
        congr 1
        apply tab_congr
        intro t _
        dsimp only
        rw [pow_add]; ring)
  rw [hmain]
  congr 1
  simp only [basisLen, evalsOn]
  apply tab_congr
  intro t htn
  apply pw_eq_eval d.omega P d.gCoset d.extendedOmega polys.length d.n d.extendedLen _ _ _ _
    (fun s t => rfl) (fun s t => rfl) a ha t htn
  intro i r t hi hr htn
  have hgi : polys[i]? = some polys[i] := List.getElem?_eq_getElem hi
  have hmod : ((((t : ℤ) + r * 2 ^ (d.extendedK - d.k)) % d.extendedLen).toNat)
      < d.extendedLen := by
    have := Int.emod_lt_of_pos ((t : ℤ) + r * 2 ^ (d.extendedK - d.k))
      (show (0 : ℤ) < d.extendedLen by omega)
    omega
  simp only [leaf, List.getD_eq_getElem _ _ hi, hP i _ hgi]
  rw [getD_evalsOn _ _ _ _ hmod, pow_emod hN0 hwn, zpow_add₀ hw0, zpow_natCast, hd.omega_eq]
  congr 1
  have : d.extendedOmega ^ (r * 2 ^ (d.extendedK - d.k))
      = (d.extendedOmega ^ 2 ^ (d.extendedK - d.k)) ^ r := by
    rw [mul_comm, zpow_mul]
    congr 1
    rw [← zpow_natCast]; push_cast; rfl
  rw [this]; ring

/-- Thread counts do not matter. -/
theorem evaluate_threads {d : Domain F} (hd : d.Valid) (t₁ t₂ : ℕ) (h₁ : t₁ ≠ 0) (h₂ : t₂ ≠ 0)
    (polys : List (List F)) (hp : polys ≠ []) (P : ℕ → F[X])
    (hP : ∀ i p, polys[i]? = some p →
      p = evalsOn d.gCoset d.extendedOmega d.extendedLen (P i)) (a : Ast F)
    (ha : LeavesOk polys.length d.n a) :
    evaluate t₁ .extended d d.gCoset polys a = evaluate t₂ .extended d d.gCoset polys a := by
  rw [evaluate_extended hd t₁ h₁ polys hp P hP a ha, evaluate_extended hd t₂ h₂ polys hp P hP a ha]

/-- The operators that are not constructors stand for what they say; being made of constructors
they are evaluated as `evaluate_extended` and `evaluate_lagrange` say. -/
theorem denote_neg (w : F) (P : ℕ → F[X]) (a : Ast F) : denote w P a.neg = -denote w P a := by
  simp [Ast.neg, denote]

theorem denote_sub (w : F) (P : ℕ → F[X]) (a b : Ast F) :
    denote w P (a.sub b) = denote w P a - denote w P b := by
  rw [Ast.sub, denote, denote_neg, sub_eq_add_neg]

theorem leavesOk_sub (np n : ℕ) (a b : Ast F) (ha : LeavesOk np n a) (hb : LeavesOk np n b) :
    LeavesOk np n (a.sub b) ∧ LeavesOk np n a.neg := by
  simp only [Ast.sub, Ast.neg, LeavesOk]
  exact ⟨⟨ha, hb⟩, ha⟩

/-! ## The coefficient basis -/

mutual
/-- Specification: expressions without leaves and products (the type of `Mul` excludes products
in this basis); `lin` says whether linear terms are allowed. -/
def CoeffOk (lin : Prop) : Ast F → Prop
  | .poly _ _ => False
  | .add a b => CoeffOk lin a ∧ CoeffOk lin b
  | .mul _ _ => False
  | .scale a _ => CoeffOk lin a
  | .distributePowers ts _ => CoeffOkList lin ts
  | .linearTerm _ => lin
  | .constantTerm _ => True

/-- All terms. -/
def CoeffOkList (lin : Prop) : List (Ast F) → Prop
  | [] => True
  | t :: ts => CoeffOk lin t ∧ CoeffOkList lin ts
end

/-- Coefficients of `s·X` and of `s`. -/
def linC (s : F) (t : ℕ) : F := if t = 1 then s else 0

/-- Coefficients of the constant `s`. -/
def conC (s : F) (t : ℕ) : F := if t = 0 then s else 0

mutual
theorem baseOk_coeff (c : Ctx F) (leaf : ℕ → ℤ → ℕ → F) (l : Prop)
    (hlin : l → ∀ s, linearTerm c.basis c.domain c.zeta c.polyLen c.size c.idx s
      = some (Piece c.polyLen c.size c.idx (linC s))) :
    ∀ a : Ast F, CoeffOk l a → BaseOk c leaf linC a
  | .poly i r, h => by simp only [CoeffOk] at h
  | .add a b, h => by
    simp only [CoeffOk] at h; simp only [BaseOk]
    exact ⟨baseOk_coeff c leaf l hlin a h.1, baseOk_coeff c leaf l hlin b h.2⟩
  | .mul a b, h => by simp only [CoeffOk] at h
  | .scale a _, h => by
    simp only [CoeffOk] at h; simp only [BaseOk]
    exact baseOk_coeff c leaf l hlin a h
  | .distributePowers ts _, h => by
    simp only [CoeffOk] at h; simp only [BaseOk]
    exact baseOkList_coeff c leaf l hlin ts h
  | .linearTerm s, h => by simp only [CoeffOk] at h; simpa only [BaseOk] using hlin h s
  | .constantTerm _, _ => by simp only [BaseOk]

theorem baseOkList_coeff (c : Ctx F) (leaf : ℕ → ℤ → ℕ → F) (l : Prop)
    (hlin : l → ∀ s, linearTerm c.basis c.domain c.zeta c.polyLen c.size c.idx s
      = some (Piece c.polyLen c.size c.idx (linC s))) :
    ∀ ts : List (Ast F), CoeffOkList l ts → BaseOkList c leaf linC ts
  | [], _ => by simp only [BaseOkList]
  | a :: as, h => by
    simp only [CoeffOkList] at h; simp only [BaseOkList]
    exact ⟨baseOk_coeff c leaf l hlin a h.1, baseOkList_coeff c leaf l hlin as h.2⟩
end

mutual
theorem pw_eq_coeff (w : F) (P : ℕ → F[X]) (leaf : ℕ → ℤ → ℕ → F) (l : Prop) :
    ∀ (a : Ast F), CoeffOk l a → ∀ t, pw leaf linC conC a t = (denote w P a).coeff t
  | .poly i r, h, t => by simp only [CoeffOk] at h
  | .add a b, h, t => by
    simp only [CoeffOk] at h
    simp [pw, denote, pw_eq_coeff w P leaf l a h.1 t, pw_eq_coeff w P leaf l b h.2 t]
  | .mul a b, h, t => by simp only [CoeffOk] at h
  | .scale a s, h, t => by
    simp only [CoeffOk] at h
    simp [pw, denote, pw_eq_coeff w P leaf l a h t]
  | .distributePowers ts base, h, t => by
    simp only [CoeffOk] at h
    simp only [pw, denote]
    exact pwPowers_eq_coeff w P leaf l base _ 0 ts h t (by simp [conC])
  | .linearTerm s, _, t => by
    simp only [pw, denote, linC, coeff_C_mul, coeff_X]
    by_cases h : t = 1 <;> simp [h, eq_comm]
  | .constantTerm s, _, t => by simp [pw, denote, conC, coeff_C]

theorem pwPowers_eq_coeff (w : F) (P : ℕ → F[X]) (leaf : ℕ → ℤ → ℕ → F) (l : Prop)
    (base acc : F) (accP : F[X]) :
    ∀ (ts : List (Ast F)), CoeffOkList l ts → ∀ t, acc = accP.coeff t →
      pwPowers leaf linC conC base acc ts t = (denotePowers w P base accP ts).coeff t
  | [], _, t, hacc => by simpa [pwPowers, denotePowers] using hacc
  | a :: as, h, t, hacc => by
    simp only [CoeffOkList] at h
    simp only [pwPowers, denotePowers]
    apply pwPowers_eq_coeff w P leaf l base _ _ as h.2 t
    simp [hacc, pw_eq_coeff w P leaf l a h.1 t]
end

theorem piece_zero (N size idx : ℕ) (f : ℕ → F)
    (h : ∀ t < min size (N - size * idx), f (size * idx + t) = 0) :
    Piece N size idx f = List.replicate (min size (N - size * idx)) 0 := by
  unfold Piece
  rw [tab_congr h]
  simp [tab]

theorem set_replicate_eq (m i : ℕ) (s : F) (hi : i < m) :
    setAt (List.replicate m 0) i s = some (tab m fun t => if t = i then s else 0) := by
  simp only [setAt, List.length_replicate, hi, if_true]
  congr 1
  apply tab_ext
  · simp
  · intro t ht
    simp only [List.getElem_set, List.getElem_replicate]
    by_cases h : i = t <;> simp [h, eq_comm]

/-- C10: in the coefficient basis the result holds the coefficients of the denoted polynomial,
for expressions without leaves (a leaf panics in this basis) and, if they contain linear terms,
more coefficients than four times the number of threads. -/
theorem evaluate_coeff {d : Domain F} (threads : ℕ) (ht : threads ≠ 0) (zeta : F)
    (polys : List (List F)) (hp : polys ≠ []) (hn : d.n ≠ 0)
    (hlen : ∀ p ∈ polys, p.length = d.n) (P : ℕ → F[X]) (a : Ast F)
    (ha : CoeffOk (threads * 4 < d.n) a) :
    evaluate threads .coeff d zeta polys a
      = some ((List.range d.n).map fun t => (denote d.omega P a).coeff t) := by
  have hmain := evaluate_eq threads ht .coeff d zeta polys hp hn hlen (fun _ _ _ => 0) linC conC a
    (by
      intro size idx s hs hlt
      change size * idx < d.n at hlt
      change constantTerm .coeff d.n size idx s = some (Piece d.n size idx (conC s))
      simp only [constantTerm]
      rw [if_neg (show ¬ d.n < size * idx by omega)]
      by_cases hi : idx = 0
      · subst hi
        rw [if_pos rfl, set_replicate_eq _ _ _ (by simp; omega)]
        simp [Piece, conC]
      · rw [if_neg hi, piece_zero]
        intro t _
        have : 0 < size * idx := Nat.mul_pos (by omega) (by omega)
        simp only [conC]; rw [if_neg (by omega)])
    (by
      intro size idx hs hs1 hlt
      simp only [basisLen] at hs1 hlt ⊢
      apply baseOk_coeff _ _ (threads * 4 < d.n) _ a ha
      intro hbig s
      have hne : size ≠ 1 := fun h => by have := hs1.1 h; omega
      simp only [linearTerm]
      rw [if_neg (show ¬ d.n < size * idx by omega), if_neg (show ¬ (size = 1 ∧ idx = 1) by tauto)]
      by_cases hi : idx = 0
      · subst hi
        rw [if_pos rfl, set_replicate_eq _ _ _ (by simp; omega)]
        simp [Piece, linC]
      · rw [if_neg hi, piece_zero]
        intro t _
        have : size ≤ size * idx := Nat.le_mul_of_pos_right _ (by omega)
        simp only [linC]; rw [if_neg (by omega)])
  rw [hmain]
  congr 1
  exact tab_congr fun t _ => pw_eq_coeff d.omega P _ _ a ha t

/-- With at least a quarter as many threads as coefficients (chunks of
one element) a linear term always panics, although the code means to handle that case: the
first chunk has no second element to write to. -/
theorem evaluate_coeff_linear_panics {d : Domain F} (threads : ℕ) (ht : threads ≠ 0) (zeta : F)
    (polys : List (List F)) (hp : polys ≠ []) (hn : d.n ≠ 0)
    (hlen : ∀ p ∈ polys, p.length = d.n) (hsmall : d.n ≤ threads * 4) (s : F) :
    evaluate threads .coeff d zeta polys (.linearTerm s) = none := by
  obtain ⟨p0, ps, rfl⟩ := List.exists_cons_of_ne_nil hp
  have hp0 : p0.length = d.n := hlen p0 (by simp)
  obtain ⟨size, hsz, hs0, hs1⟩ := chunkParams_some ht hn
  have : size = 1 := hs1.2 hsmall
  subst this
  simp only [evaluate, List.head?_cons, Option.bind_some, hp0, hsz, basisLen]
  have hne : List.replicate d.n (0 : F) ≠ [] := by simp [hn]
  rw [Verif.Multicore.chunks_cons one_ne_zero hne, List.zipIdx_cons, List.mapM_cons]
  have h0 : recurse ⟨.coeff, d, zeta, d.n, 1, 0, p0 :: ps⟩ (.linearTerm s) = none := by
    simp only [recurse, linearTerm, mul_zero, not_lt_zero, if_false, Nat.sub_zero, setAt,
      List.length_replicate, and_false, zero_ne_one, if_true]
    rw [if_neg (by omega)]
  simp only [h0]
  rfl

/-- A leaf in the coefficient basis panics, also without rotation. -/
theorem evaluate_coeff_leaf_panics {d : Domain F} (threads : ℕ) (zeta : F)
    (polys : List (List F)) (hn : d.n ≠ 0) (i : ℕ) (r : ℤ) :
    evaluate threads .coeff d zeta polys (.poly i r) = none := by
  cases polys with
  | nil => rfl
  | cons p0 ps =>
    simp only [evaluate, List.head?_cons, Option.bind_some]
    rcases hsz : chunkParams threads p0.length with _ | size
    · rfl
    · have hs0 : size ≠ 0 := by
        simp only [chunkParams] at hsz
        split_ifs at hsz with h1 h2
        have := Option.some.inj hsz
        omega
      have hne : List.replicate d.n (0 : F) ≠ [] := by simp [hn]
      simp only [Option.bind_some, basisLen]
      rw [Verif.Multicore.chunks_cons hs0 hne, List.zipIdx_cons, List.mapM_cons]
      have h0 : recurse ⟨.coeff, d, zeta, p0.length, size, 0, p0 :: ps⟩ (.poly i r) = none := by
        simp only [recurse, chunkOfRotated]
        cases (p0 :: ps)[i]? <;> rfl
      simp only [h0]
      rfl

mutual
/-- Specification: no products, which the type of `Mul` excludes in the coefficient basis. -/
def NoMul : Ast F → Prop
  | .add a b => NoMul a ∧ NoMul b
  | .mul _ _ => False
  | .scale a _ => NoMul a
  | .distributePowers ts _ => NoMulList ts
  | _ => True

/-- All terms. -/
def NoMulList : List (Ast F) → Prop
  | [] => True
  | t :: ts => NoMul t ∧ NoMulList ts
end

mutual
/-- A leaf, or a linear term while chunks have one element, fails in the first chunk. -/
theorem recurse_coeff_none (c : Ctx F) (hb : c.basis = .coeff) (hi : c.idx = 0) (lin : Prop)
    (hl : ¬ lin → c.size = 1) : ∀ a : Ast F, NoMul a → ¬ CoeffOk lin a → recurse c a = none
  | .poly i r, _, _ => by
    simp only [recurse, hb, chunkOfRotated]
    cases c.polys[i]? <;> rfl
  | .add a b, hm, h => by
    simp only [recurse]
    by_cases ha : CoeffOk lin a
    · have hb' : ¬ CoeffOk lin b := fun hb' => h ⟨ha, hb'⟩
      rw [recurse_coeff_none c hb hi lin hl b hm.2 hb']
      cases recurse c a <;> rfl
    · rw [recurse_coeff_none c hb hi lin hl a hm.1 ha]
      rfl
  | .mul _ _, hm, _ => hm.elim
  | .scale a s, hm, h => by
    simp only [recurse]
    rw [recurse_coeff_none c hb hi lin hl a hm h]
    rfl
  | .distributePowers ts base, hm, h => by
    simp only [recurse]
    cases constantTerm c.basis c.polyLen c.size c.idx (0 : F) with
    | none => rfl
    | some acc => exact recurseTerms_coeff_none c hb hi lin hl base acc ts hm h
  | .linearTerm s, _, h => by
    have h1 : c.size = 1 := hl h
    simp only [recurse, hb, hi, h1, linearTerm, setAt, List.length_replicate]
    simp
  | .constantTerm _, _, h => (h trivial).elim

theorem recurseTerms_coeff_none (c : Ctx F) (hb : c.basis = .coeff) (hi : c.idx = 0) (lin : Prop)
    (hl : ¬ lin → c.size = 1) (base : F) (acc : List F) :
    ∀ ts : List (Ast F), NoMulList ts → ¬ CoeffOkList lin ts → recurseTerms c base acc ts = none
  | [], _, h => (h trivial).elim
  | t :: ts, hm, h => by
    simp only [recurseTerms]
    by_cases ht : CoeffOk lin t
    · have ht' : ¬ CoeffOkList lin ts := fun h' => h ⟨ht, h'⟩
      cases recurse c t with
      | none => rfl
      | some x => exact recurseTerms_coeff_none c hb hi lin hl base _ ts hm.2 ht'
    · rw [recurse_coeff_none c hb hi lin hl t hm.1 ht]
      rfl
end

/-- **C10, the exception.** In the coefficient basis `evaluate_coeff` covers exactly the expressions
that can be evaluated: every other one, anywhere containing a leaf, or a linear term with no more
coefficients than four times the number of threads, panics. -/
theorem evaluate_coeff_panics {d : Domain F} (threads : ℕ) (ht : threads ≠ 0) (zeta : F)
    (polys : List (List F)) (hn : d.n ≠ 0) (hlen : ∀ p ∈ polys, p.length = d.n) (a : Ast F)
    (hm : NoMul a) (ha : ¬ CoeffOk (threads * 4 < d.n) a) :
    evaluate threads .coeff d zeta polys a = none := by
  cases polys with
  | nil => rfl
  | cons p0 ps =>
    have hp0 : p0.length = d.n := hlen p0 (by simp)
    obtain ⟨size, hsz, hs0, hs1⟩ := chunkParams_some ht hn
    simp only [evaluate, List.head?_cons, Option.bind_some, hp0, hsz, basisLen]
    have hne : List.replicate d.n (0 : F) ≠ [] := by simp [hn]
    rw [Verif.Multicore.chunks_cons (by omega) hne, List.zipIdx_cons, List.mapM_cons]
    have h0 := recurse_coeff_none ⟨.coeff, d, zeta, d.n, size, 0, p0 :: ps⟩ rfl rfl
      (threads * 4 < d.n) (fun h => hs1.2 (by omega)) a hm ha
    simp only [h0]
    rfl

/-- Such an expression: `2·(X + 1)` with two rows and one thread. -/
example : NoMul (.scale (.add (.linearTerm 1) (.constantTerm 1)) 2 : Ast (ZMod 13)) ∧
    ¬ CoeffOk (1 * 4 < 2) (.scale (.add (.linearTerm 1) (.constantTerm 1)) 2 : Ast (ZMod 13)) := by
  simp [NoMul, CoeffOk]

/-- The hypotheses are met: two rows over the field with 13 elements, the expression
`(2·p(X) + p(ωX)·p(X))·3 + 5` with four threads and `p = X² + 1`. -/
example : ∃ d : Domain (ZMod 13), d.Valid ∧
    evaluate 4 .extended d d.gCoset
      [evalsOn d.gCoset d.extendedOmega d.extendedLen (X ^ 2 + 1 : (ZMod 13)[X])]
      (.distributePowers [.add (.scale (.poly 0 0) 2) (.mul (.poly 0 1) (.poly 0 0)),
        .constantTerm 5] 3)
    = some (evalsOn d.gCoset d.extendedOmega d.extendedLen
        (((X ^ 2 + 1) * C 2 + ((C d.omega * X) ^ 2 + 1) * (X ^ 2 + 1)) * C 3 + C 5)) := by
  obtain ⟨d, _, hv, hn, _⟩ := Verif.Domain.new13
  refine ⟨d, hv, ?_⟩
  rw [evaluate_extended hv 4 (by decide) _ (by simp) (fun _ => X ^ 2 + 1)
    (by
      intro i p h
      rcases i with _ | i
      · simpa using h.symm
      · simp at h)
    _ (by simp [LeavesOk, LeavesOkList, hn])]
  simp [denote, denotePowers]

end Verif.Evaluator
