import Verif.Commit.Model
import Verif.Merkle.Complete
import Verif.MulFixed.Full

/-!
# Sinsemilla commitments are computed as specified (C66)
-/

namespace Verif.Commit

open Verif.Region Verif.Ecc Verif.Utilities Verif.Sinsemilla Verif.MulFixed

variable {C S : Type} {p q : ℕ} [Fact p.Prime] [Fact q.Prime] {b : ZMod p}

/-! ## Specification (Zcash protocol specification, section 5.4.8.4) -/

/-- `SinsemillaCommit_r(M) := SinsemillaHashToPoint(M) + [r] R`. -/
noncomputable def specCommit (gen : ℕ → Pt b) (Q R : Pt b) (ws : List ℕ) (r : ℕ) : Option (Pt b) :=
  (specHash gen Q ws).map fun H => H + r • R

/-! ## Soundness -/

theorem gates_add {ecc : FullWidth.Config C S} {G : Grid C (ZMod p)} {ops : List (Op C S (ZMod p))}
    (h : Sat (FullWidth.gates b ecc) G ops) : Sat (Add.gates ecc.super.add) G ops :=
  h.mono (fun _ hm => List.mem_cons_of_mem _ (by simp [Config.gates, hm])) fun _ h => h

/-- **C66** (soundness).  In an assignment that satisfies the constraints, the pieces are made of
words, the cells of the windows hold the digits of a scalar, and the output is the commitment to these
words with this scalar, unless the accumulator of the hash meets a generator. -/
theorem commit_sound {reprBits K : ℕ} (hg : Good b) (hK : 5 ≤ K) {gen : ℕ → Pt b}
    (hgen0 : ∀ w < 2 ^ K, gen w ≠ 0) {cfg : Sinsemilla.Config C S} {ecc : FullWidth.Config C S}
    {Q : Pt b} {R : FixedPoint b} (hR : Large R.generator numWindows) (hv : R.Valid numWindows)
    {message : List (Piece C (ZMod p))} (hne : message ≠ [])
    (hp : ∀ P ∈ message, 2 ^ (K * P.numWords) ≤ p) {r : ZMod q} {n n' : ℕ}
    {c : EccPoint C (ZMod p)} {zs : List (List (ACell C (ZMod p)))}
    {ops tot : List (Op C S (ZMod p))}
    (h : commit reprBits K (fun w => enc (gen w)) cfg ecc Q R message r n = some ((c, zs), n', ops))
    (hpart : PartOf ops tot n n') {G : Grid C (ZMod p)} (hs : Sat (Sinsemilla.gates cfg) G tot)
    (he : Sat (FullWidth.gates b ecc) G tot)
    (hl : ∀ reg, SatLookup (Sinsemilla.lookup K (fun w => enc (gen w)) cfg) G tot reg) :
    (∀ P ∈ message, (G.at P.cell.cell).val < 2 ^ (K * P.numWords)) ∧
    ∃ d : ℕ → ℕ, (∀ i < numWindows, d i < 8) ∧
      (∃ blind windows m o, FullWidth.assign ecc r R n = some ((blind, windows), m, o) ∧
        windows.map (fun x => G.at x.cell) = (List.range numWindows).map fun i => (d i : ZMod p)) ∧
      (Collides gen Q (message.flatMap fun P => digitsOf K P.numWords (G.at P.cell.cell).val) ∨
        ∃ c', specCommit gen Q R.generator
            (message.flatMap fun P => digitsOf K P.numWords (G.at P.cell.cell).val)
            (value d numWindows) = some c' ∧ Holds G c c') := by
  unfold commit at h
  obtain ⟨⟨blind, windows⟩, n1, o1, o1', h1, k1, rfl⟩ := bind_some h
  obtain ⟨⟨P, zs'⟩, n2, o2, o2', h2, k2, rfl⟩ := bind_some k1
  obtain ⟨c', n3, o3, o3', h3, k3, rfl⟩ := bind_some k2
  cases k3
  have hsub := hpart.sub
  have he' : Sat (FullWidth.gates b ecc) G (o1 ++ (o2 ++ (o3 ++ []))) := he.mono (fun _ h => h) hsub
  obtain ⟨d, hd, hw, hblind⟩ := FullWidth.assign_sound hg hR hv h1 he'.left
  have hn1 : n1 ≤ n1 := le_rfl
  have hh := hashToPoint_sound hg hK hgen0 hne h2 (fun op ho => hsub op (by simp [ho])) hs (hl n1)
  obtain ⟨b1, b2⟩ := hh.value hp
  refine ⟨b1, d, hd, ⟨blind, windows, n1, o1, h1, hw⟩, b2.imp id ?_⟩
  rintro ⟨H, hH, hHold⟩
  refine ⟨H + value d numWindows • R.generator, by rw [specCommit, hH]; rfl, ?_⟩
  unfold Region.assignRegion at h3
  exact Add.sound hg h3 G ((gates_add he').right.right.left) hHold hblind

/-- **C66** (soundness), the short commitment: the output cell is the x-coordinate. -/
theorem shortCommit_sound {reprBits K : ℕ} (hg : Good b) (hK : 5 ≤ K) {gen : ℕ → Pt b}
    (hgen0 : ∀ w < 2 ^ K, gen w ≠ 0) {cfg : Sinsemilla.Config C S} {ecc : FullWidth.Config C S}
    {Q : Pt b} {R : FixedPoint b} (hR : Large R.generator numWindows) (hv : R.Valid numWindows)
    {message : List (Piece C (ZMod p))} (hne : message ≠ [])
    (hp : ∀ P ∈ message, 2 ^ (K * P.numWords) ≤ p) {r : ZMod q} {n n' : ℕ}
    {x : ACell C (ZMod p)} {zs : List (List (ACell C (ZMod p)))}
    {ops tot : List (Op C S (ZMod p))}
    (h : shortCommit reprBits K (fun w => enc (gen w)) cfg ecc Q R message r n
      = some ((x, zs), n', ops))
    (hpart : PartOf ops tot n n') {G : Grid C (ZMod p)} (hs : Sat (Sinsemilla.gates cfg) G tot)
    (he : Sat (FullWidth.gates b ecc) G tot)
    (hl : ∀ reg, SatLookup (Sinsemilla.lookup K (fun w => enc (gen w)) cfg) G tot reg) :
    (∀ P ∈ message, (G.at P.cell.cell).val < 2 ^ (K * P.numWords)) ∧
    ∃ d : ℕ → ℕ, (∀ i < numWindows, d i < 8) ∧
      (∃ blind windows m o, FullWidth.assign ecc r R n = some ((blind, windows), m, o) ∧
        windows.map (fun x => G.at x.cell) = (List.range numWindows).map fun i => (d i : ZMod p)) ∧
      (Collides gen Q (message.flatMap fun P => digitsOf K P.numWords (G.at P.cell.cell).val) ∨
        ∃ c', specCommit gen Q R.generator
            (message.flatMap fun P => digitsOf K P.numWords (G.at P.cell.cell).val)
            (value d numWindows) = some c' ∧ G.at x.cell = (enc c').1) := by
  unfold shortCommit at h
  obtain ⟨⟨c, zs'⟩, n1, o1, o1', h1, k1, rfl⟩ := bind_some h
  cases k1
  rw [List.append_nil] at hpart
  obtain ⟨b1, d, hd, hw, hc⟩ := commit_sound hg hK hgen0 hR hv hne hp h1 hpart hs he hl
  refine ⟨b1, d, hd, hw, hc.imp id ?_⟩
  rintro ⟨c', e, hold⟩
  exact ⟨c', e, (congrArg Prod.fst hold).symm⟩

/-! ## Completeness -/

/-- The columns and selectors are different. -/
structure Distinct (cfg : Sinsemilla.Config C S) (ecc : FullWidth.Config C S) : Prop where
  cols : cfg.columns.Nodup
  super : ecc.super.Distinct
  configured : ecc.super.Configured
  full : ecc.qMulFixedFull ∉ ecc.super.selectors
  sins : cfg.qS1 ≠ cfg.qS4
  sep : ∀ s, s = cfg.qS1 ∨ s = cfg.qS4 → s ≠ ecc.qMulFixedFull ∧ s ∉ ecc.super.selectors

theorem commit_local (reprBits K : ℕ) (gens : ℕ → ZMod p × ZMod p) (cfg : Sinsemilla.Config C S)
    (ecc : FullWidth.Config C S) (Q : Pt b) (R : FixedPoint b) (message : List (Piece C (ZMod p)))
    (r : ZMod q) : Local (commit reprBits K gens cfg ecc Q R message r) :=
  (FullWidth.assign_local _ _ _).bind fun _ => (hashToPoint_local _ _ _ _ _ _).bind fun _ =>
    (Local.assignRegion fun _ => add_acts).bind fun _ => Local.pure _

theorem full_sel {ecc : FullWidth.Config C S} {g} (h : g ∈ (FullWidth.gates b ecc : Gates C S (ZMod p))) :
    g.1 = ecc.qMulFixedFull ∨ g.1 ∈ ecc.super.selectors := by
  rcases List.mem_cons.1 h with rfl | h
  · exact .inl rfl
  · right
    rcases gates_cases h with e | ⟨e, -⟩ | ⟨e, -⟩ <;> rw [e] <;> simp [Config.selectors]

theorem sins_sel {cfg : Sinsemilla.Config C S} {g}
    (h : g ∈ (Sinsemilla.gates cfg : Gates C S (ZMod p))) : g.1 = cfg.qS1 ∨ g.1 = cfg.qS4 := by
  simp only [Sinsemilla.gates, List.mem_cons, List.not_mem_nil, or_false] at h
  rcases h with rfl | rfl
  · exact .inr rfl
  · exact .inl rfl

/-- **C66** (completeness).  For every scalar and every message whose commitment is defined the layout
succeeds, and the assignment it computes satisfies all constraints and holds the commitment. -/
theorem commit_complete {reprBits K : ℕ} (hg : Good b) (hK : 5 ≤ K) {gen : ℕ → Pt b}
    {cfg : Sinsemilla.Config C S} {ecc : FullWidth.Config C S} (hd : Distinct cfg ecc)
    {Q : Pt b} (hQ : Q ≠ 0) {R : FixedPoint b} (hR : Large R.generator numWindows)
    (hv : R.Valid numWindows) (hq : q • R.generator = 0) (hp8 : 8 ≤ p) (hq8 : 8 ≤ q)
    (hq255 : q ≤ 2 ^ 255) {message : List (Piece C (ZMod p))} (hne : message ≠ [])
    (hfit : ∀ P ∈ message, Fits reprBits K P) {r : ZMod q} {c' : Pt b}
    (hspec : specCommit gen Q R.generator (msgWords K message) r.val = some c') (n : ℕ) :
    ∃ c zs ops, commit reprBits K (fun w => enc (gen w)) cfg ecc Q R message r n
        = some ((c, zs), n + 4, ops) ∧ Val c c' ∧ Consistent ops ∧
      ∀ G : Grid C (ZMod p), Honest G ops → (∀ P ∈ message, G.at P.cell.cell = P.cell.value) →
        Sat (Sinsemilla.gates cfg) G ops ∧ Sat (FullWidth.gates b ecc) G ops ∧
        (∀ reg, SatLookup (Sinsemilla.lookup K (fun w => enc (gen w)) cfg) G ops reg) ∧
        Holds G c c' := by
  unfold specCommit at hspec
  obtain ⟨H, hH, rfl⟩ := Option.map_eq_some_iff.1 hspec
  obtain ⟨blind, ws, o1, h1, v1, c1, e1, s1⟩ := FullWidth.assign_complete hg hv hR hq hp8 hq8 hq255
    hd.configured hd.super hd.full r n
  obtain ⟨P, zs, o2, h2, v2, s2⟩ := hashToPoint_complete hg hK hd.sins hne hfit hQ hH (n + 1 + 1)
  have c2 := hashToPoint_consistent hd.cols h2
  have e2 : ∀ s reg row, .enable s reg row ∈ o2 → s = cfg.qS1 ∨ s = cfg.qS4 := by
    obtain ⟨-, -, e⟩ := hashToPoint_some h2
    cases e
    exact fun s reg row hm => Merkle.hashOps_enables hm
  obtain ⟨out, hrun⟩ : ∃ out, Add.assignRegion ecc.super.add P blind (n + 1 + 1 + 1) 0 (n + 4)
      = some (out, n + 4, Add.ops ecc.super.add P blind (n + 1 + 1 + 1) 0) := ⟨_, Add.run _ _ _ _ _ _⟩
  obtain ⟨v3, s3⟩ := Add.complete hg hrun v2 v1
  have c3 := addOps_consistent (S := S) hd.super.addCols P blind (n + 1 + 1 + 1)
  have e3 : ∀ s reg row, .enable s reg row ∈
      (Add.ops ecc.super.add P blind (n + 1 + 1 + 1) 0 : List (Op C S (ZMod p))) →
      s = ecc.super.add.qAdd := fun s reg row hm => addOps_enable hm
  obtain ⟨o3, ho3⟩ : ∃ o3, o3 = (Add.ops ecc.super.add P blind (n + 1 + 1 + 1) 0 :
    List (Op C S (ZMod p))) := ⟨_, rfl⟩
  rw [← ho3] at c3 e3 s3 hrun
  have hl1 := FullWidth.assign_local ecc r R
  have hl2 := hashToPoint_local reprBits K (fun w => enc (gen w)) cfg Q message
  have hl3 : Local (Region.assignRegion fun reg => Add.assignRegion ecc.super.add P blind reg 0) :=
    Local.assignRegion fun _ => add_acts
  have h3 : (Region.assignRegion fun reg => Add.assignRegion ecc.super.add P blind reg 0)
      (n + 1 + 1 + 1) = some (out, n + 4, o3) := hrun
  have h23 : (hashToPoint reprBits K (fun w => enc (gen w)) cfg Q message >>= fun a =>
      Region.assignRegion fun reg => Add.assignRegion ecc.super.add a.1 blind reg 0) (n + 1 + 1)
      = some (out, n + 4, o2 ++ o3) := bind_of h2 h3
  have hl23 : Local (hashToPoint reprBits K (fun w => enc (gen w)) cfg Q message >>= fun a =>
      Region.assignRegion fun reg => Add.assignRegion ecc.super.add a.1 blind reg 0) :=
    hl2.bind fun _ => Local.assignRegion fun _ => add_acts
  have c23 := Merkle.consistent_bind hl2 hl3 h2 h3 c2 c3
  have c123 := Merkle.consistent_bind hl1 hl23 h1 h23 c1 c23
  refine ⟨out, zs, o1 ++ (o2 ++ o3), ?_, v3, c123, fun G hG hcells => ?_⟩
  · have : o1 ++ (o2 ++ o3) = o1 ++ (o2 ++ (o3 ++ [])) := by rw [List.append_nil]
    rw [this]
    exact bind_of h1 (bind_of h2 (bind_of h3 rfl))
  obtain ⟨k1, k2, k3⟩ := s1 G hG.left
  obtain ⟨m1, m2, m3⟩ := s2 G hG.right.left hcells
  obtain ⟨a1, a2⟩ := s3 G hG.right.right m3 k2
  have q3 : ecc.super.add.qAdd ∈ ecc.super.selectors := by simp [Config.selectors]
  refine ⟨?_, ?_, fun reg row => ?_, a2⟩
  · refine Sat.append ?_ (Sat.append m1 ?_)
    · refine k1.widen fun g hg reg row hm => ?_
      rcases e1 _ _ _ hm with e | e
      · exact absurd e (hd.sep _ (sins_sel hg)).1
      · exact absurd e (hd.sep _ (sins_sel hg)).2
    · refine a1.widen fun g hg reg row hm => ?_
      exact absurd (e3 _ _ _ hm ▸ q3) (hd.sep _ (sins_sel hg)).2
  · refine Sat.append k1 (Sat.append ?_ ?_)
    · refine m1.widen fun g hg reg row hm => ?_
      have := hd.sep _ (e2 _ _ _ hm)
      rcases full_sel hg with e | e
      · exact absurd e this.1
      · exact absurd e this.2
    · refine a1.widen fun g hg reg row hm => ?_
      have e := e3 _ _ _ hm
      rcases List.mem_cons.1 hg with rfl | hg
      · have e' : ecc.qMulFixedFull = ecc.super.add.qAdd := e
        exact absurd (by rw [e']; exact q3) hd.full
      · rcases gates_cases hg with e' | ⟨-, h⟩ | ⟨e', -⟩
        · exact absurd (e'.symm.trans e) hd.super.ne.1
        · exact h
        · exact absurd (e.symm.trans e') hd.super.ne.2.2
  · by_cases hr : reg = n + 1 + 1
    · subst hr
      obtain ⟨q1, q2⟩ := PartOf.bind hl1 hl23 h1 h23 (PartOf.self _ _ _)
      obtain ⟨q4, q5⟩ := PartOf.bind hl2 hl3 h2 h3 q2
      exact (q4.lookup le_rfl (by omega) _ G).2 (m2 _) row
    · refine Sinsemilla.lookup_off _ _ _ (by omega) (LookupRange.selectors_off fun hm => ?_)
      rcases List.mem_append.1 hm with hm | hm
      · rcases e1 _ _ _ hm with e | e
        · exact (hd.sep _ (.inl rfl)).1 e
        · exact (hd.sep _ (.inl rfl)).2 e
      · rcases List.mem_append.1 hm with hm | hm
        · have := (hl2 _ _ _ _ h2).2 _ hm _ rfl
          omega
        · exact (hd.sep _ (.inl rfl)).2 (e3 _ _ _ hm ▸ q3)

/-- **C66** (completeness), the short commitment. -/
theorem shortCommit_complete {reprBits K : ℕ} (hg : Good b) (hK : 5 ≤ K) {gen : ℕ → Pt b}
    {cfg : Sinsemilla.Config C S} {ecc : FullWidth.Config C S} (hd : Distinct cfg ecc)
    {Q : Pt b} (hQ : Q ≠ 0) {R : FixedPoint b} (hR : Large R.generator numWindows)
    (hv : R.Valid numWindows) (hq : q • R.generator = 0) (hp8 : 8 ≤ p) (hq8 : 8 ≤ q)
    (hq255 : q ≤ 2 ^ 255) {message : List (Piece C (ZMod p))} (hne : message ≠ [])
    (hfit : ∀ P ∈ message, Fits reprBits K P) {r : ZMod q} {c' : Pt b}
    (hspec : specCommit gen Q R.generator (msgWords K message) r.val = some c') (n : ℕ) :
    ∃ x zs ops, shortCommit reprBits K (fun w => enc (gen w)) cfg ecc Q R message r n
        = some ((x, zs), n + 4, ops) ∧ x.value = (enc c').1 ∧ Consistent ops ∧
      ∀ G : Grid C (ZMod p), Honest G ops → (∀ P ∈ message, G.at P.cell.cell = P.cell.value) →
        Sat (Sinsemilla.gates cfg) G ops ∧ Sat (FullWidth.gates b ecc) G ops ∧
        (∀ reg, SatLookup (Sinsemilla.lookup K (fun w => enc (gen w)) cfg) G ops reg) ∧
        G.at x.cell = (enc c').1 := by
  obtain ⟨c, zs, ops, h, hval, hcon, hsat⟩ := commit_complete hg hK hd hQ hR hv hq hp8 hq8 hq255 hne
    hfit hspec n
  refine ⟨c.x, zs, ops, ?_, (congrArg Prod.fst hval).symm, hcon, fun G hG hc => ?_⟩
  · have := bind_of (f := fun a => (pure (a.1.x, a.2) : M C S (ZMod p) _)) h (rfl : _ = some (_, _, []))
    rw [List.append_nil] at this
    exact this
  · obtain ⟨a, b, c, d⟩ := hsat G hG hc
    exact ⟨a, b, c, (congrArg Prod.fst d).symm⟩

end Verif.Commit
