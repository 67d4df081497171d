import Verif.Embed.IsoScene

/-
What kind of obstruction is found and where the unembedded edge ends.
-/
namespace Verif.Isolate
open Verif Verif.Embed Verif.Graph Verif.EGraph Verif.Random Verif.Test Function
open Verif.Props (AncEq Anc)

variable {A : Nat → Prop} {B : Base} {Pl : Plan B} {s s' s0 : EGraph} {G : Gh B.D} {L fw PR : Nat → List Nat} {v c R x w y : Nat} {P Q xs : List Nat}
  {t : Nat → Nat} {M M' : Nat → Prop} {g g' : Graph} {fo ba : Nat → Nat}

theorem getParent_val {p : PGraph} (z : Nat) : Ens (p.getParent z) fun n => z < 1 + p.g.N ∧ n = (p.VI z).parent := by
  unfold PGraph.getParent
  exact Ens.bind (rdVI_val z) fun r hr => Ens.pure ⟨hr.1, by rw [hr.2]⟩

theorem descends_anc (P : Part B s L fw) {root : Nat} : ∀ (fuel z : Nat), 1 ≤ z → Ens (descends s.p root fuel z) fun b => b = true → AncEq B.par root z
  | 0, _, _ => Ens.none
  | fuel + 1, z, h1 => by
    unfold descends
    refine Ens.ite (fun h => Ens.some fun _ => by rw [h]; exact .refl _) fun _ => Ens.bind (getParent_val z) fun n hn => ?_
    have hz : z ≤ B.N := by have := hn.1; rw [P.N] at this; omega
    have hp : n = B.par z := hn.2.trans (P.parent z h1 hz)
    refine Ens.ite (fun _ => Ens.pure fun h => by cases h) fun h => ?_
    rw [not_or] at h
    exact (descends_anc P fuel n (Nat.one_le_iff_ne_zero.2 h.1)).mono fun b hb hh => .up (by rw [← hp]; exact h.1) (by rw [← hp]; exact hb hh)

theorem edgeToSubtree_anc (P : Part B s L fw) {anc root : Nat} (ha : 1 ≤ anc) (hr : root ≤ B.N) : Ens (s.edgeToSubtree anc root) fun r => r.2 = true →
    root ≠ 0 ∧ ∃ f ∈ fw anc, B.own (twin f) = r.1 ∧ AncEq B.par root r.1 := by
  intro r hres
  have h0 := edgeToSubtree_spec P ha root r hres
  intro hr2
  refine ⟨(h0 hr2).2, ?_⟩
  revert hr2
  revert r
  show Ens (s.edgeToSubtree anc root) fun r => _ → r.2 = true → ∃ f ∈ fw anc, B.own (twin f) = r.1 ∧ AncEq B.par root r.1
  unfold edgeToSubtree
  rw [if_neg (by rw [P.N]; omega)]
  refine Ens.bind (P := fun r => r = root) (Ens.some rfl) fun r hr => ?_
  subst hr
  refine Ens.bind (rdVI_val anc) fun r hr => ?_
  have hN : anc ≤ B.N := by have := hr.1; rw [P.N] at this; omega
  rw [hr.2]
  refine Ens.bind (leastDesc_spec P _ _ 0 (P.fw_head ha hN) (.inl rfl)) fun d hd => Ens.ite (fun _ => Ens.pure fun _ h => by cases h) fun hd0 => ?_
  obtain ⟨f, hf, rfl⟩ := hd.resolve_left hd0
  exact Ens.bind (descends_anc P _ _ (Nat.one_le_iff_ne_zero.2 hd0)) fun b hb => Ens.pure fun _ hb' => ⟨f, hf, rfl, hb hb'⟩

theorem lists_prev {c : LC.Coll} {hd : Nat → Nat} {n : Nat} {Ls : Nat → List Nat} (h : Lists c hd n Ls) {z : Nat} (h1 : 1 ≤ z) (h2 : z ≤ n) (h0 : Ls z ≠ []) :
    c.prev (hd z) ∈ Ls z := by
  have hr := h.ring z
  rw [h.head z h1 h2]
  cases hL : Ls z with
  | nil => exact absurd hL h0
  | cons a t =>
    rw [hL, LC.ring_iff] at hr
    show c.prev a ∈ a :: t
    rcases List.eq_nil_or_concat t with rfl | ⟨l, y, rfl⟩
    · have := (List.isChain_cons_cons.1 hr).1.2
      rw [this]; simp
    · rw [List.concat_eq_append] at hr ⊢
      have he : a :: (l ++ [y] ++ [a]) = (a :: l) ++ y :: [a] := by simp
      rw [he, List.isChain_append] at hr
      have := (List.isChain_cons_cons.1 hr.2.1).1.2
      rw [this]; simp

/-- The kind of the obstruction. -/
inductive Kind (B : Base) (PR : Nat → List Nat) (v c w : Nat) (ic : IC) : Prop
  | A (h : ic.minorType = 1) (hp : B.par c ≠ v) (hd : ic.dw = w ∨ ∃ k ∈ PR w, AncEq B.par k ic.dw)
  | B (h : ic.minorType = 2) (hp : B.par c = v) (hd : ∃ k ∈ PR w, AncEq B.par k ic.dw)
  | E (h : ic.minorType = 16) (hp : B.par c = v) (hd : ic.dw = w)

/-- The context with its kind and the unembedded edge. -/
structure Plot (Pl : Plan B) (G : Gh B.D) (fw PR : Nat → List Nat) (v c : Nat) (x : Nat) (P : List Nat) (w : Nat) (Q : List Nat) (y : Nat) (L : Nat → List Nat) (t : Nat → Nat)
    (s : EGraph) : Prop where
  stage : Stage Pl G fw PR v c (x :: P ++ w :: Q ++ [y]) L t
  play : Play Pl fw PR v L t s fun _ => False
  icv : s.ic.v = v
  icr : s.ic.r = c + B.N
  icw : s.ic.w = w
  left : ∀ z ∈ x :: P, ob s.p.g z = 2
  right : ∀ z ∈ Q ++ [y], ob s.p.g z = 6
  vis : ∀ z, 1 ≤ z → z ≤ B.N → ¬ Seen s.p.g z
  kind : Kind B PR v c w s.ic
  edge : ∃ f ∈ fw v, B.own (twin f) = s.ic.dw

theorem Scene.w_range (h : Scene Pl G fw PR v c x P w Q y L t s) : 1 ≤ w ∧ w ≤ B.N ∧ G.cp w = c := h.stage.inn w (by simp)

/-- What is found out about the kind before the edge is looked for. -/
inductive Kind0 (B : Base) (PR : Nat → List Nat) (v c w : Nat) (ic : IC) : Prop
  | A (h : ic.minorType = 1) (hp : B.par c ≠ v)
  | B (h : ic.minorType = 2) (hp : B.par c = v) (hd : PR w ≠ [])
  | E (h : ic.minorType = 16) (hp : B.par c = v) (hd : PR w = [])

theorem chooseOuter_plot {R : Nat} (h : Ok (s.initContext true v R) fun s' => ∃ c x P w Q y L, Scene Pl G fw PR v c x P w Q y L t s') :
    Ok (s.chooseOuter v R) fun s' => ∃ c x P w Q y L, (∃ s1, Scene Pl G fw PR v c x P w Q y L t s1 ∧ ∃ m, s' = s1.addMinor m) ∧ Kind0 B PR v c w s'.ic := by
  unfold chooseOuter
  refine Ok.both h fun s1 ⟨c, x, P, w, Q, y, L, h1⟩ => ?_
  have hP := h1.play.part
  have hc := h1.stage.good.root c h1.stage.live
  have hu : Ens (s1.primaryOf s1.ic.r) fun u => u = B.par c := by
    unfold primaryOf childOf
    rw [h1.r, hP.N, if_pos (by omega)]
    refine Ens.bind (P := fun k => k = c) (Ens.some (by omega)) fun k hk => (getParent_val k).mono fun n hn => ?_
    rw [hk] at hn
    rw [hn.2, hP.parent c h1.stage.live.1 hc.1]
  have hm : ∀ m, (s1.addMinor m).ic.minorType = m := fun m => by
    show s1.ic.minorType ||| m = m
    rw [h1.mt, Nat.zero_or]
  refine Ok.bind hu fun u hu => Ok.ite (fun h => Ok.ret ⟨c, x, P, w, Q, y, L, ⟨s1, h1, 1, rfl⟩, .A (hm 1) (hu ▸ h)⟩) fun h => Ok.bind (rdVI_val _) fun r hr => ?_
  have hpr : r.pertinentRoots = pr s1 w := by rw [hr.2, h1.w]; rfl
  have hz := h1.play.prl.zero h1.w_range.1 h1.w_range.2.1
  rw [hpr]
  refine Ok.ite (fun h' => Ok.ret ⟨c, x, P, w, Q, y, L, ⟨s1, h1, 2, rfl⟩, .B (hm 2) ?_ fun hh => h' (hz.2 hh)⟩) fun h' =>
    Ok.ret ⟨c, x, P, w, Q, y, L, ⟨s1, h1, 16, rfl⟩, .E (hm 16) ?_ (hz.1 (not_not.1 h'))⟩
  all_goals rw [← hu]; exact not_not.1 h

theorem outerContext_plot (hv : 1 ≤ v) {s1 : EGraph} (h : Scene Pl G fw PR v c x P w Q y L t s1) {m : Nat} (hk : Kind0 B PR v c w (s1.addMinor m).ic) :
    Ok ((s1.addMinor m).outerContext) fun s' => Plot Pl G fw PR v c x P w Q y L t s' := by
  generalize hs : s1.addMinor m = s at hk
  have hP : Part B s L fw := by rw [← hs]; exact h.play.part.mv (Mv.setIC _ _)
  have hpl : Play Pl fw PR v L t s fun _ => False := by rw [← hs]; exact h.play.setIC _
  have hgg : s.p.g = s1.p.g := by rw [← hs]; rfl
  have hsv : s.ic.v = v := by rw [← hs]; exact h.v
  have hsr : s.ic.r = c + B.N := by rw [← hs]; exact h.r
  have hsw : s.ic.w = w := by rw [← hs]; exact h.w
  have hw := h.w_range
  have hreg : ∀ k ∈ PR w, k ≤ B.N := fun k hk => (h.stage.good.root k (h.stage.reg w k hk).1).1
  have fin : ∀ d, (∃ f ∈ fw v, B.own (twin f) = d) → Kind B PR v c w { s.ic with dw := d } → Plot Pl G fw PR v c x P w Q y L t (s.setIC { s.ic with dw := d }) := by
    intro d hd hk
    exact ⟨h.stage, hpl.setIC _, hsv, hsr, hsw, fun z hz => by rw [← h.left z hz, ← hgg]; rfl, fun z hz => by rw [← h.right z hz, ← hgg]; rfl, fun z h1 h2 hh => h.vis z h1 h2 (by rw [← hgg]; exact hh), hk, hd⟩
  have hcur : Ens (s.edgeToCur w) fun r => r.2 = true → (∃ f ∈ fw v, B.own (twin f) = r.1) ∧ (r.1 = w ∨ ∃ k ∈ PR w, AncEq B.par k r.1) := by
    unfold edgeToCur
    refine Ens.bind (rdVI_val w) fun r hr => Ens.ite (fun hpe => Ens.pure fun _ => ⟨?_, .inl rfl⟩) fun _ => ?_
    · rw [hr.2] at hpe
      have := hpl.pe w hw.1 hw.2.1 hpe
      refine ⟨_, this.1, ?_⟩
      rw [(Pl.fw_own v _ ((h.stage.sub v).subset this.1)).2, this.2]
    · have hpr : r.pertinentRoots = pr s w := by rw [hr.2]; rfl
      have hle : pr s w ≤ B.N ∧ (pr s w ≠ 0 → pr s w ∈ PR w) := by
        have h1 := hpl.prl.head w hw.1 hw.2.1
        cases hL : PR w with
        | nil => rw [hL] at h1; simp at h1; rw [h1]; simp
        | cons a T =>
          rw [hL] at h1
          have : pr s w = a := h1
          rw [this]
          exact ⟨hreg a (by rw [hL]; simp), fun _ => by simp⟩
      rw [hpr, hsv]
      refine (edgeToSubtree_anc hP hv hle.1).mono fun r hr ho => ?_
      obtain ⟨h0, f, hf, h1, h2⟩ := hr ho
      exact ⟨⟨f, hf, h1⟩, .inr ⟨_, hle.2 h0, h2⟩⟩
  unfold outerContext
  rw [hsw]
  cases hk with
  | A hm hp =>
    rw [if_neg (by rw [hm]; decide)]
    refine Ok.bind hcur fun ⟨d, ok⟩ hd => Ens.pure fun ho => ?_
    obtain ⟨h1, h2⟩ := hd ho
    exact fin d h1 (.A hm hp h2)
  | B hm hp hne =>
    rw [if_pos (by rw [hm]; decide)]
    have hl : Ens (s.lastRootChild w) fun k => k ∈ PR w := by
      unfold lastRootChild
      refine Ens.bind (rdVI_val w) fun r hr => ?_
      unfold LC.getPrev LC.rdPrev
      rw [if_pos rfl]
      refine Ens.ite (fun _ => Ens.some ?_) fun _ => Ens.none
      have hpr : r.pertinentRoots = pr s w := by rw [hr.2]; rfl
      rw [hpr]
      exact lists_prev hpl.prl hw.1 hw.2.1 hne
    refine Ok.bind hl fun k hk => ?_
    rw [hsv]
    refine Ok.bind (edgeToSubtree_anc hP hv (hreg k hk)) fun ⟨d, ok⟩ hd => Ens.pure fun ho => ?_
    obtain ⟨-, f, hf, h1, h2⟩ := hd ho
    exact fin d ⟨f, hf, h1⟩ (.B hm hp ⟨k, hk, h2⟩)
  | E hm hp hne =>
    rw [if_neg (by rw [hm]; decide)]
    refine Ok.bind hcur fun ⟨d, ok⟩ hd => Ens.pure fun ho => ?_
    obtain ⟨h1, h2⟩ := hd ho
    refine fin d h1 (.E hm hp (h2.resolve_right ?_))
    rintro ⟨k, hk, -⟩
    rw [hne] at hk; cases hk

end Verif.Isolate
