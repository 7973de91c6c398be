import Verif.Permutation.Lemmas

/-! # Closed form of the prover's product columns -/

namespace Verif.Permutation

open Verif.Multicore
open Verif.Evaluator (Ast scanMul zipUpdate scanMul_eq)
open Verif.Fft (tab tab_succ tab_congr length_tab tab_ext)
open Finset (range)

variable {F : Type*} [Field F] {Col : Type*}

theorem zipUpdate_mul (l ts : List F) :
    zipUpdate (· * ·) l ts = l.mapIdx fun i x => x * ts.getD i 1 := by
  induction l generalizing ts with
  | nil => cases ts <;> simp [zipUpdate]
  | cons a l ih =>
    cases ts with
    | nil => simp [zipUpdate, List.mapIdx_eq_zipIdx_map]
    | cons t ts => simp [zipUpdate, ih]

theorem mapIdx_tab {α β : Type*} (n : ℕ) (f : ℕ → α) (g : ℕ → α → β) :
    (tab n f).mapIdx g = tab n fun t => g t (f t) := by
  apply tab_ext
  · simp
  · intro i hi; simp [tab]

theorem getD_tab {α : Type*} (n : ℕ) (f : ℕ → α) (d : α) (i : ℕ) (hi : i < n) :
    (tab n f).getD i d = f i := by
  rw [List.getD_eq_getElem _ _ (by simpa using hi)]; simp [tab]

/-- One multiplication pass over the rows. -/
theorem parallelize_mul (threads : ℕ) (ht : threads ≠ 0) (n : ℕ) (hn : 0 < n) (f g : ℕ → F)
    (clo : List F → ℕ → List F)
    (hclo : ∀ piece start, clo piece start
      = piece.mapIdx fun i x => x * (if start + i < n then g (start + i) else 1)) :
    parallelize threads (tab n f) clo = some (tab n fun t => f t * g t) := by
  have hne : tab n f ≠ [] := by
    intro h; have := congrArg List.length h; simp at this; omega
  have h1 := parallelize_eq_mapIdx threads (tab n f) (fun i x => x * if i < n then g i else 1) hne ht
  have hc : clo = fun piece start => piece.mapIdx fun i x =>
      (fun i x => x * if i < n then g i else 1) (start + i) x := by
    funext piece start; exact hclo piece start
  rw [hc, h1, mapIdx_tab]
  congr 1
  apply tab_congr
  intro i hi
  simp [hi]

theorem denominators_eq (threads : ℕ) (ht : threads ≠ 0) (n : ℕ) (hn : 0 < n) (beta gamma : F)
    (val : Col → List F) (l : List (Col × List F)) (f : ℕ → F)
    (hl : ∀ p ∈ l, (val p.1).length = n ∧ p.2.length = n) :
    denominators threads beta gamma val l (tab n f)
      = some (tab n fun t => f t *
        (l.map fun p => (val p.1).getD t 0 + beta * p.2.getD t 0 + gamma).prod) := by
  induction l generalizing f with
  | nil => simp [denominators]
  | cons p l ih =>
    obtain ⟨c, perm⟩ := p
    obtain ⟨h1, h2⟩ := hl (c, perm) (by simp)
    simp only at h1 h2
    rw [denominators, parallelize_mul threads ht n hn f
      (fun t => (val c).getD t 0 + beta * perm.getD t 0 + gamma), Option.bind_some,
      ih _ fun p hp => hl p (by simp [hp])]
    · congr 1
      apply tab_congr
      intro t _
      simp only [List.map_cons, List.prod_cons]
      ring
    · intro piece start
      rw [zipUpdate_mul]
      congr 1
      funext i x
      congr 1
      split_ifs with h
      · rw [List.getD_eq_getElem _ _ (by simp; omega), List.getD_eq_getElem _ _ (by omega),
          List.getD_eq_getElem _ _ (by omega)]
        simp only [List.getElem_zipWith, List.getElem_drop]
        ring
      · rw [List.getD_eq_default _ _ (by simp; omega)]

theorem numerators_eq (threads : ℕ) (ht : threads ≠ 0) (n : ℕ) (hn : 0 < n)
    (omega delta beta gamma : F) (val : Col → List F) (l : List Col) (dw : F) (f : ℕ → F)
    (hl : ∀ c ∈ l, (val c).length = n) :
    numerators threads omega delta beta gamma val l dw (tab n f)
      = some (tab n fun t => f t *
        (nums (beta * (dw * omega ^ t)) gamma delta (fun c => (val c).getD t 0) l).prod,
        dw * delta ^ l.length) := by
  induction l generalizing f dw with
  | nil => simp [numerators, nums]
  | cons c l ih =>
    have h1 := hl c (by simp)
    have hpass : parallelize threads (tab n f) (fun piece start =>
        zipUpdate (· * ·) piece
          (List.zipWith (fun v d => d * beta + gamma + v) ((val c).drop start)
            (scanMul omega piece.length (dw * omega ^ start))))
        = some (tab n fun t => f t * ((val c).getD t 0 + beta * (dw * omega ^ t) + gamma)) := by
      apply parallelize_mul threads ht n hn
      intro piece start
      rw [zipUpdate_mul, scanMul_eq]
      apply List.ext_getElem
      · simp
      · intro i h3 h4
        have hi : i < piece.length := by simpa using h4
        simp only [List.getElem_mapIdx]
        congr 1
        split_ifs with h
        · rw [List.getD_eq_getElem _ _ (by simp; omega), List.getD_eq_getElem _ _ (by omega)]
          simp only [List.getElem_zipWith, List.getElem_drop, tab, List.getElem_map,
            List.getElem_range]
          ring
        · rw [List.getD_eq_default _ _ (by simp; omega)]
    rw [numerators, hpass, Option.bind_some, ih _ _ fun c hc => hl c (by simp [hc])]
    congr 2
    · apply tab_congr
      intro t _
      rw [nums, nums, List.mapIdx_cons, List.prod_cons, mul_assoc]
      congr 3
      · ring
      · congr 1
        funext i c
        ring
    · rw [List.length_cons, pow_succ']; ring

theorem running_eq (z : F) (ms : List F) :
    running z ms = tab (ms.length + 1) fun t => z * ∏ i ∈ range t, ms.getD i 0 := by
  induction ms generalizing z with
  | nil => simp [running, tab]
  | cons m ms ih =>
    rw [running, ih, List.length_cons, tab_succ (ms.length + 1)]
    congr 1
    · simp
    · apply tab_congr
      intro t _
      rw [Finset.prod_range_succ', List.getD_cons_zero]
      simp only [List.getD_cons_succ]
      ring

/-- The product of fractions of a column set on one row. -/
def frac (omega delta beta gamma : F) (val : Col → List F) (cols : List Col)
    (perms : List (List F)) (dw : F) (t : ℕ) : F :=
  (dens beta gamma (fun c => (val c).getD t 0) cols (perms.map (·.getD t 0))).prod⁻¹ *
    (nums (beta * (dw * omega ^ t)) gamma delta (fun c => (val c).getD t 0) cols).prod

theorem commitSet_eq (threads : ℕ) (ht : threads ≠ 0) (omega delta beta gamma : F) (n bf : ℕ)
    (hbf : bf + 1 ≤ n) (rand : ℕ → F) (val : Col → List F) (cols : List Col)
    (perms : List (List F)) (dw lastZ : F) (hv : ∀ c ∈ cols, (val c).length = n)
    (hp : ∀ p ∈ perms, p.length = n) :
    commitSet threads omega delta beta gamma n bf rand val cols perms dw lastZ =
      let zf := fun t => if t < n - bf then
        lastZ * ∏ i ∈ range t, frac omega delta beta gamma val cols perms dw i
        else rand (t - (n - bf))
      some (tab n zf, dw * delta ^ cols.length, zf (n - (bf + 1))) := by
  have hrep : List.replicate n (1 : F) = tab n fun _ => 1 := by
    apply tab_ext <;> simp
  have hz : ∀ p ∈ cols.zip perms, (val p.1).length = n ∧ p.2.length = n := by
    rintro ⟨c, p⟩ h
    exact ⟨hv c (List.of_mem_zip h).1, hp p (List.of_mem_zip h).2⟩
  rw [commitSet, hrep, denominators_eq threads ht n (by omega) beta gamma val _ _ hz,
    Option.bind_some]
  have hmap : (tab n fun t => 1 * ((cols.zip perms).map fun p =>
      (val p.1).getD t 0 + beta * p.2.getD t 0 + gamma).prod).map (·⁻¹)
      = tab n fun t => (dens beta gamma (fun c => (val c).getD t 0) cols
        (perms.map (·.getD t 0))).prod⁻¹ := by
    apply tab_ext
    · simp
    · intro i hi
      simp only [tab, List.getElem_map, List.getElem_range, one_mul, dens, List.zipWith_map_right]
      rw [← List.map_uncurry_zip_eq_zipWith]
      rfl
  rw [hmap, numerators_eq threads ht n (by omega) omega delta beta gamma val cols dw _ hv,
    Option.bind_some]
  simp only
  rw [if_neg (by omega)]
  have hzl : (running lastZ ((tab n fun t => frac omega delta beta gamma val cols perms dw t).take
        (n - 1))).take (n - bf) ++ (List.range bf).map rand
      = tab n fun t => if t < n - bf then
        lastZ * ∏ i ∈ range t, frac omega delta beta gamma val cols perms dw i
        else rand (t - (n - bf)) := by
    rw [running_eq]
    apply tab_ext
    · simp; omega
    · intro i hi
      have hin : i < n := by simp at hi; omega
      rw [List.getElem_append]
      split_ifs with h1 h2 h2
      · simp only [List.getElem_take, tab, List.getElem_map, List.getElem_range]
        congr 1
        apply Finset.prod_congr rfl
        intro t htr
        have := Finset.mem_range.1 htr
        rw [List.getD_eq_getElem _ _ (by simp; omega)]
        simp
      · simp at h1; omega
      · simp at h1; omega
      · simp only [List.getElem_map, List.getElem_range]
        congr 1
        simp
        omega
  have hfr : (fun t => (dens beta gamma (fun c => (val c).getD t 0) cols
        (perms.map (·.getD t 0))).prod⁻¹ *
      (nums (beta * (dw * omega ^ t)) gamma delta (fun c => (val c).getD t 0) cols).prod)
      = fun t => frac omega delta beta gamma val cols perms dw t := rfl
  rw [hfr, hzl, getD_tab _ _ _ _ (by omega)]

theorem chunkProd_zero (L : ℕ) (l : List F) : chunkProd L 0 l = (l.take L).prod := by
  simp [chunkProd]

theorem chunkProd_succ (L c : ℕ) (l : List F) :
    chunkProd L (c + 1) l = chunkProd L c (l.drop L) := by
  rw [chunkProd, chunkProd, List.drop_drop]
  congr 3
  ring

theorem nums_take (bx gamma delta : F) (colEval : Col → F) (cols : List Col) (L : ℕ) :
    (nums bx gamma delta colEval cols).take L = nums bx gamma delta colEval (cols.take L) := by
  apply List.ext_getElem
  · simp [nums]
  · intro i h1 h2; simp [nums]

theorem nums_drop (bx gamma delta : F) (colEval : Col → F) (cols : List Col) (L : ℕ) :
    (nums bx gamma delta colEval cols).drop L
      = nums (bx * delta ^ L) gamma delta colEval (cols.drop L) := by
  apply List.ext_getElem
  · simp [nums]
  · intro i h1 h2; simp [nums, pow_add, mul_assoc]

theorem dens_take (beta gamma : F) (colEval : Col → F) (cols : List Col) (ps : List F) (L : ℕ) :
    (dens beta gamma colEval cols ps).take L
      = dens beta gamma colEval (cols.take L) (ps.take L) := by
  simp [dens, List.take_zipWith]

theorem dens_drop (beta gamma : F) (colEval : Col → F) (cols : List Col) (ps : List F) (L : ℕ) :
    (dens beta gamma colEval cols ps).drop L
      = dens beta gamma colEval (cols.drop L) (ps.drop L) := by
  simp [dens, List.drop_zipWith]

/-- What the product columns look like: start, links, recurrence, blinding rows. -/
theorem commitSets_spec (threads : ℕ) (ht : threads ≠ 0) (omega delta beta gamma : F) (n bf : ℕ)
    (hbf : bf + 1 ≤ n) (rand : ℕ → ℕ → F) (val : Col → List F) (L : ℕ) (hL : L ≠ 0)
    (cols : List Col) (perms : List (List F)) (hlen : perms.length = cols.length) (dw lastZ : F)
    (s : ℕ)
    (hv : ∀ c ∈ cols, (val c).length = n) (hp : ∀ p ∈ perms, p.length = n) :
    ∃ zs, commitSets threads omega delta beta gamma n bf rand val s
        ((chunks L cols).zip (chunks L perms)) dw lastZ = some zs ∧
      zs.length = (chunks L cols).length ∧
      (∀ z ∈ zs, z.length = n) ∧
      let z := fun c j => (zs.getD c []).getD j 0
      (0 < zs.length → z 0 0 = lastZ) ∧
      (∀ c, c + 1 < zs.length → z (c + 1) 0 = z c (n - (bf + 1))) ∧
      (∀ c < zs.length, ∀ j < n - (bf + 1), z c (j + 1) = z c j *
        ((chunkProd L c (dens beta gamma (fun c => (val c).getD j 0) cols
            (perms.map (·.getD j 0))))⁻¹
          * chunkProd L c (nums (beta * (dw * omega ^ j)) gamma delta (fun c => (val c).getD j 0)
            cols))) ∧
      (∀ c < zs.length, ∀ j < bf, z c (n - bf + j) = rand (s + c) j) := by
  induction hm : cols.length using Nat.strong_induction_on
    generalizing cols perms dw lastZ s with
  | _ m ih =>
    by_cases hcols : cols = []
    · subst hcols
      have hpe : perms = [] := List.eq_nil_of_length_eq_zero (by simpa using hlen)
      subst hpe
      refine ⟨[], by simp [chunks_nil, commitSets], by simp [chunks_nil], by simp, by simp, by simp,
        by simp, by simp⟩
    · have hpos := List.length_pos_of_ne_nil hcols
      have hpe : perms ≠ [] := by
        intro h; rw [h] at hlen; simp at hlen; omega
      have hvt : ∀ c ∈ cols.take L, (val c).length = n := fun c hc => hv c (List.mem_of_mem_take hc)
      have hpt : ∀ p ∈ perms.take L, p.length = n := fun p hpp => hp p (List.mem_of_mem_take hpp)
      obtain ⟨zf, hzf⟩ : ∃ zf : ℕ → F, zf = fun t => if t < n - bf then
        lastZ * ∏ i ∈ range t, frac omega delta beta gamma val (cols.take L) (perms.take L) dw i
        else rand s (t - (n - bf)) := ⟨_, rfl⟩
      have hset : commitSet threads omega delta beta gamma n bf (rand s) val (cols.take L)
          (perms.take L) dw lastZ
          = some (tab n zf, dw * delta ^ (cols.take L).length, zf (n - (bf + 1))) := by
        rw [hzf]
        exact commitSet_eq threads ht omega delta beta gamma n bf hbf (rand s) val
          (cols.take L) (perms.take L) dw lastZ hvt hpt
      obtain ⟨zs, h1, h2, h3, h4, h5, h6, h7⟩ := ih (cols.drop L).length
        (by simp; omega) (cols.drop L) (perms.drop L) (by simp [hlen])
        (dw * delta ^ (cols.take L).length) (zf (n - (bf + 1))) (s + 1)
        (fun c hc => hv c (List.mem_of_mem_drop hc)) (fun p hpp => hp p (List.mem_of_mem_drop hpp))
        rfl
      simp only at h4 h5 h6 h7
      refine ⟨tab n zf :: zs, ?_, ?_, ?_, ?_, ?_, ?_, ?_⟩
      · rw [chunks_cons hL hcols, chunks_cons hL hpe, List.zip_cons_cons, commitSets, hset,
          Option.bind_some]
        simp only
        rw [h1, Option.map_some]
      · rw [chunks_cons hL hcols, List.length_cons, List.length_cons, h2]
      · intro z hz
        rcases List.mem_cons.1 hz with rfl | hz
        · simp
        · exact h3 z hz
      · intro _
        simp only [List.getD_cons_zero]
        rw [getD_tab _ _ _ _ (by omega), hzf]
        simp only [Finset.range_zero, Finset.prod_empty, mul_one]
        rw [if_pos (by omega)]
      · intro c hc
        simp only [List.getD_cons_succ]
        cases c with
        | zero =>
          simp only [List.getD_cons_zero]
          rw [getD_tab _ _ _ _ (by omega)]
          exact h4 (by simpa using hc)
        | succ c =>
          simp only [List.getD_cons_succ]
          exact h5 c (by simpa using hc)
      · intro c hc j hj
        cases c with
        | zero =>
          simp only [List.getD_cons_zero]
          rw [getD_tab _ _ _ _ (by omega), getD_tab _ _ _ _ (by omega), hzf]
          simp only
          rw [if_pos (by omega), if_pos (by omega), Finset.prod_range_succ, frac, chunkProd_zero,
            chunkProd_zero, dens_take, nums_take, List.map_take, mul_assoc]
        | succ c =>
          simp only [List.getD_cons_succ]
          have hc' : c < zs.length := by simpa using hc
          rw [h6 c hc' j hj, chunkProd_succ, chunkProd_succ, dens_drop, nums_drop]
          -- the set before a further one is full
          have hfull : (cols.take L).length = L := by
            rw [h2] at hc'
            have := (lt_chunks_length hL (cols.drop L) c).1 hc'
            simp at this ⊢
            omega
          rw [hfull, List.map_drop]
          congr 4
          ring
      · intro c hc j hj
        cases c with
        | zero =>
          simp only [List.getD_cons_zero]
          rw [getD_tab _ _ _ _ (by omega), hzf]
          simp
        | succ c =>
          simp only [List.getD_cons_succ]
          rw [h7 c (by simpa using hc) j hj]
          congr 1
          ring

end Verif.Permutation
