import Verif.Embed.IsoOuter

/-
Minors A and B: the marked edges form a subdivision of K2,3.
-/
namespace Verif.Isolate
open Verif Verif.Embed Verif.Graph Verif.EGraph Verif.Random Verif.Test Verif.DFS Verif.Props Function

variable {B : Base} {Pl : Plan B} {s s' : EGraph} {G : Gh B.D} {L L' fw PR : Nat → List Nat} {v c R x w y : Nat} {P Q xs : List Nat}
  {t : Nat → Nat} {M M' : Nat → Prop} {g g' : Graph}

theorem twin_flip {e d : Nat} : twin e = d ↔ e = twin d := ⟨fun h => by rw [← h, twin_twin], fun h => by rw [h, twin_twin]⟩

theorem Along.tw {l : List Nat} {e : Nat} (h : Along L l (twin e)) : Along L l e := by
  obtain ⟨z, hz, h⟩ := h
  rw [twin_flip, twin_flip, twin_twin] at h
  exact ⟨z, hz, h.symm⟩
theorem Trail.tw {l : List Nat} {e : Nat} (h : Trail B l (twin e)) : Trail B l e := by
  obtain ⟨z, hz, h⟩ := h
  rw [twin_flip, twin_flip, twin_twin] at h
  exact ⟨z, hz, h.symm⟩

theorem Stage.along (g : Stage Pl G fw PR v c xs L t) (hp : Part B s L fw) {e : Nat} (h : Along L (xs ++ [c + B.N]) e) : B.A e := by
  obtain ⟨z, hz, h⟩ := h
  have : B.A (endIn true (L z)) := hp.lk.arc z _ (g.cyc.ba_mem (by simp at hz ⊢; tauto))
  rcases h with rfl | rfl
  · exact this
  · exact B.tw _ this
theorem Stage.trail (g : Stage Pl G fw PR v c xs L t) (hp : Part B s L fw) {l : List Nat} (hl : ∀ z ∈ l, B.Child z) {e : Nat} (h : Trail B l e) : B.A e := by
  obtain ⟨z, hz, h⟩ := h
  have : B.A (B.ta z) := hp.lk.arc _ _ (g.hold z (hl z hz))
  rcases h with rfl | rfl
  · exact this
  · exact B.tw _ this

theorem marks5 {A a b c d e : Prop} (a1 : a → A) (a2 : b → A) (a3 : c → A) (a4 : d → A) (a5 : e → A) :
    (A ∧ ((((False ∨ a) ∨ b) ∨ c) ∨ d ∨ e)) ↔ a ∨ b ∨ (d ∨ e) ∨ c := by tauto
theorem marks4 {A a c d e : Prop} (a1 : a → A) (a3 : c → A) (a4 : d → A) (a5 : e → A) :
    (A ∧ (((False ∨ a) ∨ c) ∨ d ∨ e)) ↔ a ∨ (d ∨ e) ∨ c := by tauto

/-- If exactly the marked edges stay, a subdivision is left. -/
def Ready (B : Base) (t : Nat → Nat) (s : EGraph) : Prop :=
  ∃ M, Tag B.A t M s.p.g ∧ (∀ e, M (twin e) → M e) ∧ ∀ g' L', Remains B M g' L' → IsSubdivision g' 5 edgesK23 ∨ IsSubdivision g' 4 edgesK4

/-- Vertices below a pertinent child of `w` are not on the outer face. -/
theorem Stage.deep (g : Stage Pl G fw PR v c xs L t) (hw : w ∈ xs) {k z : Nat} (hk : k ∈ PR w) (h : AncEq B.par k z) : z ∉ xs := by
  intro hz
  obtain ⟨z1, z2, z3⟩ := g.inn z hz
  obtain ⟨w1, w2, w3⟩ := g.inn w hw
  obtain ⟨k1, k2, -⟩ := g.reg w k hk
  have h1 := live_anc g.good k1 h z1 z2
  rw [z3] at h1
  have h2 := ancEq_le B.par_lt h1 g.child.1 g.child.2.1
  have h3 := g.good.cp_le B.par_lt w1 w2
  have h4 := B.par_lt k k1.1 (g.good.root k k1).1
  omega

theorem isolateOuterA_ready (hB : NoLoop B) (h1 : 1 ≤ v) (h2 : v ≤ B.N) (h : Plot Pl G fw PR v c x P w Q y L t s) (hpc : B.par c ≠ v)
    (hd : s.ic.dw = w ∨ ∃ k ∈ PR w, AncEq B.par k s.ic.dw) : Ok s.isolateOuterA (Ready B t) := by
  have gg := h.stage
  have hw := gg.inn w (by simp)
  have hc := gg.child
  have hplt := B.par_lt c hc.1 hc.2.1
  have hdw : s.ic.dw ≤ B.N := by
    obtain ⟨f, hf, hfd⟩ := h.edge
    have := h.play.part.down v f hf
    rw [hfd] at this; exact this.2.1
  unfold isolateOuterA
  rw [h.icr]
  refine Ok.both (markExt_play gg h.play) fun s1 ⟨i1, p1⟩ => ?_
  rw [i1, h.icv, h.icr]
  refine Ok.both (markDFS_play gg h2 p1 (c + B.N)) fun s2 ⟨i2, lu, cu, p2⟩ => ?_
  rw [i2, i1, h.icw]
  refine Ok.both (markDFS_play gg hw.2.1 p2 s.ic.dw) fun s3 ⟨i3, lw, cw, p3⟩ => ?_
  have i3 : s3.ic = s.ic := by rw [i3, i2, i1]
  refine (finish_play hB p3 (by rw [i3]; exact h.icv) h1 h2 (by rw [i3]; exact h.edge)).mono ?_
  rintro s4 ⟨f, hf, hfd, hT⟩
  rw [i3] at hfd
  have hP := h.play.part
  rw [B.home_root hc.1] at cu
  rw [B.home_le hdw] at cw
  have lu1 := cu.le (d := 0)
  have lw1 := cw.le (d := 0)
  obtain ⟨p1', rfl⟩ := cu.head hpc
  refine ⟨_, hT, ?_, fun g' L' hr => .inl ?_⟩
  · rintro e (((((hh | hh) | hh) | hh)) | hh | hh)
    · exact absurd hh id
    · exact .inl (.inl (.inl (.inr hh.tw)))
    · exact .inl (.inl (.inr hh.tw))
    · exact .inl (.inr hh.tw)
    · exact .inr (.inr (twin_flip.1 hh))
    · exact .inr (.inl (by rw [twin_flip, twin_twin] at hh; exact hh))
  · refine gg.k23 hP hr (m1 := (B.par c :: p1').map fun k => twin (B.ta k)) (p1 := p1') (b := v) (m2 := f :: lw.map fun k => twin (B.ta k)) (p2 := lw) ?_ ?_ ?_ ?_ ?_
    · exact cu.way gg hP
    · have hway := cw.way gg hP
      have hhd : ∃ q, lw ++ [w] = s.ic.dw :: q := by
        cases lw with
        | nil => exact ⟨[], by rw [show s.ic.dw = w from cw]; rfl⟩
        | cons a l => exact ⟨l ++ [w], by rw [cw.1]; rfl⟩
      obtain ⟨q, hq⟩ := hhd
      rw [List.cons_append, hq]
      rw [hq] at hway
      exact .cons (hP.own v f hf) hfd hway
    · have hcw := gg.good.cp_le B.par_lt hw.1 hw.2.1
      rw [hw.2.2] at hcw
      have hlx : ∀ z ∈ lw, z ∉ x :: P ++ w :: Q ++ [y] := by
        intro z hz
        rcases hd with hd | ⟨k, hk, hd⟩
        · have := lw1.2 z hz; omega
        · exact gg.deep (by simp) hk (cw.below (gg.reg w k hk).2.1 hd z hz)
      rw [List.nodup_append]
      refine ⟨?_, (List.nodup_cons.1 gg.cyc.nodup).2, ?_⟩
      · rw [List.nodup_append]
        refine ⟨cu.nodup, List.nodup_cons.2 ⟨fun hh => ?_, cw.nodup⟩, ?_⟩
        · have := lw1.2 v hh; omega
        · intro a ha b hb hab
          subst hab
          have h3 := lu1.2 a ha
          rcases List.mem_cons.1 hb with rfl | hb
          · omega
          · have := lw1.2 a hb; omega
      · intro a ha b hb hab
        subst hab
        have hx := gg.inn a hb
        have := hx.2.2 ▸ gg.good.cp_le B.par_lt hx.1 hx.2.1
        rcases List.mem_append.1 ha with ha | ha
        · have := lu1.2 a ha; omega
        · rcases List.mem_cons.1 ha with rfl | ha
          · omega
          · exact hlx a ha hb
    · intro z hz
      have : z ∈ B.par c :: p1' ∨ z = v ∨ z ∈ lw := by simp at hz ⊢; tauto
      rcases this with hh | rfl | hh
      · have := lu1.2 z hh; exact ⟨this.2.2.1, this.2.2.2.1⟩
      · exact ⟨h1, h2⟩
      · have := lw1.2 z hh; exact ⟨this.2.2.1, this.2.2.2.1⟩
    · intro e
      have e1 : (e ∈ f :: lw.map fun k => twin (B.ta k)) ∨ (twin e ∈ f :: lw.map fun k => twin (B.ta k)) ↔ (e = f ∨ e = twin f) ∨ Trail B lw e := by
        rw [← mem_trail, List.mem_cons, List.mem_cons, twin_flip (d := f)]; tauto
      rw [e1, mem_trail]
      have a1 := gg.along hP (e := e)
      have a2 := gg.trail hP (fun z hz => (lu1.2 z hz).2.2) (e := e)
      have a3 := gg.trail hP (fun z hz => (lw1.2 z hz).2.2) (e := e)
      have a4 : e = f → B.A e := fun hh => hh ▸ hP.arc v f hf
      have a5 : e = twin f → B.A e := fun hh => hh ▸ B.tw _ (hP.arc v f hf)
      exact marks5 a1 a2 a3 a4 a5

theorem isolateOuterB_ready (hB : NoLoop B) (h1 : 1 ≤ v) (h2 : v ≤ B.N) (h : Plot Pl G fw PR v c x P w Q y L t s) (hpc : B.par c = v)
    (hd : ∃ k ∈ PR w, AncEq B.par k s.ic.dw) : Ok s.isolateOuterBE (Ready B t) := by
  have gg := h.stage
  have hw := gg.inn w (by simp)
  have hc := gg.child
  have hplt := B.par_lt c hc.1 hc.2.1
  have hdw : s.ic.dw ≤ B.N ∧ 1 ≤ s.ic.dw := by
    obtain ⟨f, hf, hfd⟩ := h.edge
    have := h.play.part.down v f hf
    rw [hfd] at this; exact ⟨this.2.1, this.1⟩
  unfold isolateOuterBE
  rw [h.icr]
  refine Ok.both (markExt_play gg h.play) fun s1 ⟨i1, p1⟩ => ?_
  rw [i1, h.icw]
  refine Ok.both (markDFS_play gg hw.2.1 p1 s.ic.dw) fun s3 ⟨i3, lw, cw, p3⟩ => ?_
  have i3 : s3.ic = s.ic := by rw [i3, i1]
  refine (finish_play hB p3 (by rw [i3]; exact h.icv) h1 h2 (by rw [i3]; exact h.edge)).mono ?_
  rintro s4 ⟨f, hf, hfd, hT⟩
  rw [i3] at hfd
  have hP := h.play.part
  rw [B.home_le hdw.1] at cw
  have lw1 := cw.le (d := 0)
  obtain ⟨k, hk, hd⟩ := hd
  have hreg := gg.reg w k hk
  have hdne : s.ic.dw ≠ w := by
    have h3 := ancEq_le B.par_lt hd hdw.2 hdw.1
    have := B.par_lt k hreg.1.1 (gg.good.root k hreg.1).1
    have := hreg.2.1
    omega
  obtain ⟨p2, rfl⟩ := cw.head hdne
  refine ⟨_, hT, ?_, fun g' L' hr => .inl ?_⟩
  · rintro e ((((hh | hh) | hh)) | hh | hh)
    · exact absurd hh id
    · exact .inl (.inl (.inr hh.tw))
    · exact .inl (.inr hh.tw)
    · exact .inr (.inr (twin_flip.1 hh))
    · exact .inr (.inl (by rw [twin_flip, twin_twin] at hh; exact hh))
  · refine gg.k23 hP hr (m1 := [f]) (p1 := []) (b := s.ic.dw) (m2 := (s.ic.dw :: p2).map fun k => twin (B.ta k)) (p2 := p2) ?_ ?_ ?_ ?_ ?_
    · exact .one (by rw [hP.own v f hf, hpc]) hfd
    · exact cw.way gg hP
    · have hcw := gg.good.cp_le B.par_lt hw.1 hw.2.1
      rw [hw.2.2] at hcw
      have hlx : ∀ z ∈ s.ic.dw :: p2, z ∉ x :: P ++ w :: Q ++ [y] := fun z hz => gg.deep (by simp) hk (cw.below hreg.2.1 hd z hz)
      rw [List.nodup_append]
      refine ⟨?_, (List.nodup_cons.1 gg.cyc.nodup).2, ?_⟩
      · show (B.par c :: (s.ic.dw :: p2)).Nodup
        rw [List.nodup_cons]
        refine ⟨fun hh => ?_, cw.nodup⟩
        have := lw1.2 _ hh; omega
      · intro a ha b hb hab
        subst hab
        have hx := gg.inn a hb
        have := hx.2.2 ▸ gg.good.cp_le B.par_lt hx.1 hx.2.1
        rcases List.mem_cons.1 (show a ∈ B.par c :: (s.ic.dw :: p2) from ha) with ha | ha
        · omega
        · exact hlx a ha hb
    · intro z hz
      have := lw1.2 z hz; exact ⟨this.2.2.1, this.2.2.2.1⟩
    · intro e
      rw [mem_trail, List.mem_singleton, List.mem_singleton, twin_flip (d := f)]
      have a1 := gg.along hP (e := e)
      have a3 := gg.trail hP (fun z hz => (lw1.2 z hz).2.2) (e := e)
      have a4 : e = f → B.A e := fun hh => hh ▸ hP.arc v f hf
      have a5 : e = twin f → B.A e := fun hh => hh ▸ B.tw _ (hP.arc v f hf)
      exact marks4 a1 a3 a4 a5

end Verif.Isolate
