import Verif.Embed.IsoJoin

/-
Adding the edges not yet embedded after the components are joined.
-/
namespace Verif.Isolate
open Verif Verif.Embed Verif.Graph Verif.EGraph Verif.Random Verif.Test Function

variable {A : Nat → Prop} {B : Base} {s s' : EGraph} {L L' L'' fw fw' : Nat → List Nat} {v : Nat}

theorem putFirst_eq (g : Graph) (v e : Nat) : putFirst g v e = putArc g v false e := rfl

theorem findFwd_spec (P : Part B s L fw) {anc desc : Nat} : ∀ (fuel e : Nat), (e = 0 ∨ e ∈ fw anc) →
    Ens (findFwd s.p anc desc fuel e) fun f => f = 0 ∨ (f ∈ fw anc ∧ B.own (twin f) = desc)
  | 0, e, _ => by unfold findFwd; exact Ens.ite (fun _ => Ens.some (.inl rfl)) fun _ => Ens.none
  | fuel + 1, e, he => by
    unfold findFwd
    refine Ens.ite (fun _ => Ens.some (.inl rfl)) fun h0 => Ens.bind (getNbr_val e) fun w hw => ?_
    have he := he.resolve_left h0
    refine Ens.ite (fun h => Ens.pure (.inr ⟨he, ?_⟩)) fun _ => Ens.bind (P.fw_next he) fun n hn => Ens.skip fun r _ => findFwd_spec P fuel _ ?_
    · rw [← P.nbr anc e he, ← hw, h]
    · split
      · exact .inl rfl
      · exact .inr hn

/-- Adding an edge keeps the lists in order. -/
theorem Part.putEdge (hB : NoLoop B) (P : Part B s L fw) (hs : Shut B L) {anc f : Nat} (hf : f ∈ fw anc) (ha : L anc ≠ []) :
    Ens (takeFwd s.p anc f >>= fun p => putFirst p.g anc f >>= fun g => putFirst g (B.own (twin f)) (twin f) >>= fun g => g.setNbr (twin f) anc >>= fun g =>
      Pure.pure (s.setP (p.setG g))) fun s' =>
    ∃ L', Part B s' L' (update fw anc ((fw anc).erase f)) ∧ s'.ic = s.ic ∧ Grow B L L' ∧ Shut B L' := by
  generalize hd : B.own (twin f) = desc
  have hst := (P.up anc f hf).range
  have hch : B.Child desc := hd ▸ P.down anc f hf
  have hA := P.arc anc f hf
  have hA' := B.tw f hA
  have hown := P.own anc f hf
  have hne : anc ≠ desc := by
    have := hB f hA
    rw [hown, hd] at this; exact this
  have hdne := (P.full desc hch).1
  have hff : f ≠ twin f := fun h => twin_ne f h.symm
  obtain ⟨g1, VI1, e1, l1, b1, E1, V1, v1⟩ := takeFwd_spec P.N P.fwl hst hf
  rw [e1]
  refine Ens.bind (P := fun p => p = ⟨g1, VI1⟩) (Ens.some rfl) fun p hp => ?_
  subst hp
  have hin : ∀ x, ∀ e ∈ L x, e ∉ fw anc := fun x e he h => (P.off anc e h x).1 he
  have L1 : Links g1 L := links_at P.lk.links b1.N b1.arcCap (fun x e he b => by rw [E1 e (hin x e he)]) fun w b => by rw [V1]
  have hvs : ∀ x, x ≤ B.N → x < g1.vSize := fun x hx => by
    show x < 1 + g1.N + g1.N
    rw [b1.N, P.N]; omega
  have hes : g1.eSize = s.p.g.eSize := b1.eSize
  have harc : ∀ e, B.A e → 2 ≤ e ∧ e < g1.eSize := fun e he => by rw [hes, P.eSize]; exact B.rng e he
  obtain ⟨g2, e2, l2, b2, E2⟩ := putArc_spec L1 false ⟨hst.1, hvs anc hst.2⟩ (harc f hA) (fun w => (P.off anc f hf w).1) ha
  dsimp only
  rw [putFirst_eq, e2]
  refine Ens.bind (P := fun p => g2 = p) (Ens.some rfl) fun p hp => ?_
  subst hp
  have hm2 : ∀ x e, e ∈ update L anc (putEnd false f (L anc)) x ↔ e ∈ L x ∨ (e = f ∧ x = anc) := by
    intro x e
    by_cases hx : x = anc
    · subst hx; rw [update_self, mem_putEnd]; simp [or_comm]
    · rw [update_of_ne hx]; simp [hx]
  have hd2 : update L anc (putEnd false f (L anc)) desc = L desc := update_of_ne hne.symm _ _
  obtain ⟨g3, e3, l3, b3, E3⟩ := putArc_spec l2 false (v := desc) (x := twin f) ⟨hch.1, by rw [b2.vSize]; exact hvs desc hch.2.1⟩
    (by rw [b2.eSize]; exact harc _ hA') (fun w hw => by
      rcases (hm2 w _).1 hw with h | ⟨h, _⟩
      · exact (P.off anc f hf w).2 h
      · exact hff h.symm) (by rw [hd2]; exact hdne)
  rw [putFirst_eq, e3]
  refine Ens.bind (P := fun p => g3 = p) (Ens.some rfl) fun p hp => ?_
  subst hp
  generalize hL' : update (update L anc (putEnd false f (L anc))) desc (putEnd false (twin f) (update L anc (putEnd false f (L anc)) desc)) = L' at l3
  have hm : ∀ x e, e ∈ L' x ↔ e ∈ L x ∨ (e = f ∧ x = anc) ∨ (e = twin f ∧ x = desc) := by
    intro x e
    rw [← hL']
    by_cases hx : x = desc
    · subst hx; rw [update_self, mem_putEnd, hm2]; simp [hne.symm, or_comm]
    · rw [update_of_ne hx, hm2]; simp [hx]
  have hn : Ens (g3.setNbr (twin f) anc) fun g => g = { g3 with E := update g3.E (twin f) { g3.E (twin f) with nbr := anc } } := by
    unfold setNbr
    refine Ens.bind (rdE_val _) fun r hr => ?_
    unfold wrE
    rw [hr]
    exact Ens.ite (fun _ => Ens.some rfl) fun _ => Ens.none
  refine Ens.bind hn fun g4 h4 => Ens.pure ⟨L', ?_⟩
  have hE4 : ∀ e, e ≠ twin f → g4.E e = g3.E e := fun e he => by rw [h4]; exact update_of_ne he _ _
  have hl4 : ∀ e b, (g4.E e).link b = (g3.E e).link b := by
    intro e b
    by_cases he : e = twin f
    · subst he; rw [h4]
      show (update g3.E (twin f) _ (twin f)).link b = _
      rw [update_self]; rfl
    · rw [hE4 e he]
  have hn4 : (g4.E (twin f)).nbr = anc := by
    rw [h4]
    show (update g3.E (twin f) _ (twin f)).nbr = _
    rw [update_self]
  have hV4 : g4.V = g3.V := by rw [h4]
  have b4 : Fix0 g3 g4 := by rw [h4]; constructor <;> intros <;> rfl
  have hnb : ∀ e, e ≠ twin f → (g4.E e).nbr = (s.p.g.E e).nbr := fun e he => by
    rw [hE4 e he, b3.nbr, b2.nbr, b1.nbr]
  have hsame : ∀ e, e ≠ f → e ≠ twin f → (∀ x, e ∉ L x) → g4.E e = g1.E e := by
    intro e h1 h2 h3
    rw [hE4 e h2, E3 e h2 (fun w hw => by
      rcases (hm2 w e).1 hw with h | ⟨h, _⟩
      · exact h3 w h
      · exact h1 h), E2 e h1 h3]
  have hgrow : ∀ u, L u ≠ [] → L' u ≠ [] := by
    intro u h
    obtain ⟨e, l, he⟩ := List.exists_cons_of_ne_nil h
    exact List.ne_nil_of_mem ((hm u e).2 (.inl (by rw [he]; simp)))
  have hshut : Shut B L' := by
    intro c hc
    rw [List.eq_nil_iff_forall_not_mem]
    intro e he
    rcases (hm _ e).1 he with h | ⟨_, h⟩ | ⟨_, h⟩
    · rw [hs c hc] at h; cases h
    · have := hst.2; omega
    · have := hch.2.1; omega
  have hA2 : ∀ x e, e ∈ L' x → B.A e := by
    intro x e he
    rcases (hm x e).1 he with h | ⟨rfl, _⟩ | ⟨rfl, _⟩
    · exact P.lk.arc x e h
    · exact hA
    · exact hA'
  have hhome : ∀ x e, e ∈ L' x → B.own e = B.home x := by
    intro x e he
    rcases (hm x e).1 he with h | ⟨rfl, rfl⟩ | ⟨rfl, rfl⟩
    · exact P.home x e h
    · rw [B.home_le hst.2, hown]
    · rw [B.home_le hch.2.1, hd]
  have hfw : ∀ u, ∀ e ∈ update fw anc ((fw anc).erase f) u, e ∈ fw u ∧ e ≠ f := by
    intro u e he
    by_cases hu : u = anc
    · subst hu
      rw [update_self, (P.fwl.nodup u).mem_erase_iff] at he
      exact ⟨he.2, he.1⟩
    · rw [update_of_ne hu] at he
      exact ⟨he, fun h => hu (P.fwl.disj u anc f (h ▸ he) hf)⟩
  have hfw' : ∀ u e, e ∈ fw u → e ≠ f → e ∈ update fw anc ((fw anc).erase f) u := by
    intro u e he he'
    by_cases hu : u = anc
    · subst hu; rw [update_self, (P.fwl.nodup u).mem_erase_iff]; exact ⟨he', he⟩
    · rw [update_of_ne hu]; exact he
  refine ⟨⟨P.fix.trans ((Fix0.of_same b1).trans ((Fix0.of_same b2).trans ((Fix0.of_same b3).trans b4))), ⟨?_, ?_, ?_, hA2, Part.apart hB hhome hA2, ?_, P.lk.nil⟩, hhome, ?_, ?_,
    fun u e he => P.arc u e (hfw u e he).1, fun u e he => P.own u e (hfw u e he).1, ?_, fun u e he => P.up u e (hfw u e he).1, fun u e he => P.down u e (hfw u e he).1, ?_, ?_, ?_, ?_, ?_⟩,
    rfl, fun u _ h => hgrow u h, hshut⟩
  · exact l3.congr b4.N b4.arcCap hl4 fun w b => by show (g4.V w).link b = _; rw [hV4]
  · intro x e he
    show (g4.E (twin e)).nbr = x
    by_cases hef : e = f
    · subst hef
      rw [hn4]
      rcases (hm x e).1 he with h | ⟨_, h⟩ | ⟨h, _⟩
      · exact absurd h (P.off anc e hf x).1
      · exact h.symm
      · exact absurd h hff
    · rw [hnb _ fun h => hef (by rw [← twin_twin e, h, twin_twin])]
      rcases (hm x e).1 he with h | ⟨h, _⟩ | ⟨rfl, rfl⟩
      · exact P.lk.owner x e h
      · exact absurd h hef
      · rw [twin_twin, P.nbr anc f hf, hd]
  · intro x e he
    rcases (hm x e).1 he with h | ⟨rfl, rfl⟩ | ⟨rfl, rfl⟩
    · obtain ⟨y, hy⟩ := P.lk.pair x e h
      exact ⟨y, (hm y _).2 (.inl hy)⟩
    · exact ⟨desc, (hm _ _).2 (.inr (.inr ⟨rfl, rfl⟩))⟩
    · exact ⟨anc, (hm _ _).2 (.inr (.inl ⟨twin_twin f, rfl⟩))⟩
  · intro e he
    show g4.E e = {}
    rw [hsame e (fun h => he (h ▸ hA)) (fun h => he (h ▸ hA')) fun x hx => he (P.lk.arc x e hx), E1 e fun h => he (P.arc anc e h)]
    exact P.lk.blank e he
  · intro c hc h
    exact absurd (hshut c hc) h
  · refine l1.congr ?_ (fun _ _ _ => rfl) fun z y hy => ?_
    · show g4.eSize = g1.eSize
      rw [b4.eSize, b3.eSize, b2.eSize]
    · obtain ⟨h1, h2⟩ := hfw z y hy
      have : g4.E y = g1.E y := hsame y h2 (fun h => P.once anc z f hf (h ▸ h1)) fun x => (P.off z y h1 x).1
      exact ⟨by show (g4.E y).link false = _; rw [this]; rfl, by show (g4.E y).link true = _; rw [this]; rfl⟩
  · intro u e he
    obtain ⟨h1, h2⟩ := hfw u e he
    show (g4.E e).nbr = _
    rw [hnb e fun h => P.once anc u f hf (h ▸ h1)]
    exact P.nbr u e h1
  · intro u e he x
    obtain ⟨h1, h2⟩ := hfw u e he
    rw [hm, hm]
    refine ⟨?_, ?_⟩
    · rintro (h | ⟨h, _⟩ | ⟨h, _⟩)
      · exact (P.off u e h1 x).1 h
      · exact h2 h
      · exact P.once anc u f hf (h ▸ h1)
    · rintro (h | ⟨h, _⟩ | ⟨h, _⟩)
      · exact (P.off u e h1 x).2 h
      · exact P.once u anc e h1 (h ▸ hf)
      · exact h2 (by rw [← twin_twin e, h, twin_twin])
  · intro u w e he he'
    exact P.once u w e (hfw u e he).1 (hfw w _ he').1
  · intro e he
    rcases P.cover e he with ⟨x, hx⟩ | ⟨u, h | h⟩
    · exact .inl ⟨x, (hm x e).2 (.inl hx)⟩
    · by_cases hef : e = f
      · exact .inl ⟨anc, (hm _ _).2 (.inr (.inl ⟨hef, rfl⟩))⟩
      · exact .inr ⟨u, .inl (hfw' u e h hef)⟩
    · by_cases hef : twin e = f
      · exact .inl ⟨desc, (hm _ _).2 (.inr (.inr ⟨by rw [← hef, twin_twin], rfl⟩))⟩
      · exact .inr ⟨u, .inr (hfw' u _ h hef)⟩
  · intro x h1 h2
    show (VI1 x).parent = _
    rw [v1 x]; exact P.parent x h1 h2
  · intro c hc
    refine ⟨hgrow c (P.full c hc).1, .inr (hgrow _ ((P.full c hc).2.resolve_left fun hh => hh (hs c hc.1)))⟩

/-- The joined graph, of which some vertices have arcs. -/
structure Joined (B : Base) (s : EGraph) (L fw : Nat → List Nat) : Prop where
  part : Part B s L fw
  shut : Shut B L

theorem Joined.mv (h : Joined B s L fw) (m : Mv B.A s s') : Joined B s' L fw := ⟨h.part.mv m, h.shut⟩

theorem Joined.back (hB : NoLoop B) (h : Joined B s L fw) {anc : Nat} (ha : L anc ≠ []) (h1 : 1 ≤ anc) (desc : Nat) : Ens (s.addBackEdge anc desc) fun s' =>
    ∃ L' fw', Joined B s' L' fw' ∧ s'.ic = s.ic ∧ Grow B L L' ∧ ∀ u, fw u = [] → fw' u = [] := by
  have P := h.part
  unfold addBackEdge
  refine Ens.bind (rdVI_val anc) fun r hr => ?_
  have hN : anc ≤ B.N := by have := hr.1; rw [P.N] at this; omega
  rw [hr.2]
  refine Ens.bind (findFwd_spec P _ _ (P.fw_head h1 hN)) fun f hf0 => Ens.ite (fun _ => Ens.pure ⟨L, fw, h, rfl, .refl _ _, fun _ h => h⟩) fun h0 => ?_
  obtain ⟨hf, rfl⟩ := hf0.resolve_left h0
  refine (P.putEdge hB h.shut hf ha).mono ?_
  rintro s' ⟨L', P', hi, hg, hs⟩
  refine ⟨L', _, ⟨P', hs⟩, hi, hg, fun u hu => ?_⟩
  by_cases h' : u = anc
  · subst h'; rw [hu] at hf; cases hf
  · rw [update_of_ne h']; exact hu

/-- Marking an edge adds it first. -/
theorem Joined.mark (hB : NoLoop B) (h : Joined B s L fw) {anc desc : Nat} (ha : L anc ≠ []) (hd : L desc ≠ []) (h1 : 1 ≤ anc ∧ anc ≤ B.N) (h2 : desc ≤ B.N) :
    Ok (s.addMarkEdge anc desc) fun s' => ∃ L' fw', Joined B s' L' fw' ∧ s'.ic = s.ic ∧ Grow B L L' := by
  unfold EGraph.addMarkEdge
  refine Ok.bind (h.back hB ha h1.1 desc) ?_
  rintro s1 ⟨L1, fw1, j1, i1, g1, -⟩
  have k := j1.part.lk
  refine Ok.bind (setVisited_fr (A := B.A) anc) fun g2 h2' => Ok.bind ((k.fr h2').first anc false) fun a ha' => ?_
  have haA : B.A a := by
    rcases ha' with h | h
    · exact absurd h.1 (g1 anc h1.2 ha)
    · exact k.arc anc a h.2
  refine Ok.bind (setEdgeVisited_fr haA) fun g3 h3 => Ok.bind (((k.fr h2').fr h3).first desc false) fun b hb => ?_
  have hbA : B.A b := by
    rcases hb with h | h
    · exact absurd h.1 (g1 desc h2 hd)
    · exact k.arc desc b h.2
  refine Ok.bind (setEdgeVisited_fr hbA) fun g4 h4 => Ok.bind (setVisited_fr (A := B.A) desc) fun g5 h5 => Ok.ret ?_
  exact ⟨L1, fw1, j1.mv (Mv.setG s1 (h2'.trans (h3.trans (h4.trans h5)))), i1, g1⟩

theorem Up.grow (hg : Grow B L L') {u : Nat} (h : Up B L u) : Up B L' u := ⟨h.1, h.2.imp (hg u h.1.2) id⟩
theorem Ends.grow (hg : Grow B L L') {ic : IC} (h : Ends B L ic) : Ends B L' ic :=
  ⟨⟨h.x.1.grow hg, h.x.2.grow hg⟩, ⟨h.y.1.grow hg, h.y.2.grow hg⟩, fun h0 => ⟨(h.w h0).1.grow hg, (h.w h0).2.grow hg⟩, fun h0 => ⟨(h.z h0).1.grow hg, (h.z h0).2.grow hg⟩⟩

theorem Joined.mark' (hB : NoLoop B) {ic : IC} (h : Joined B s L fw) (E : Ends B L ic) (hi : s.ic = ic) {anc desc : Nat} (hu : Up B L anc ∧ Up B L desc) :
    Ok (s.addMarkEdge anc desc) fun s' => ∃ L' fw', Joined B s' L' fw' ∧ Ends B L' ic ∧ s'.ic = ic := by
  refine (h.mark hB (hu.1.ne h.part (.refl _ _) h.shut) (hu.2.ne h.part (.refl _ _) h.shut) hu.1.1 hu.2.1.2).mono ?_
  rintro s' ⟨L', fw', j, i, g⟩
  exact ⟨L', fw', j, E.grow g, i.trans hi⟩

theorem Joined.markEdges (hB : NoLoop B) (h : Joined B s L fw) (E : Ends B L s.ic) : Ok s.addMarkEdges fun s' => ∃ L' fw', Joined B s' L' fw' := by
  unfold EGraph.addMarkEdges
  refine Ok.both (h.mark' hB E rfl E.x) ?_
  rintro s1 ⟨L1, fw1, j1, E1, i1⟩
  rw [i1]
  refine Ok.both (j1.mark' hB E1 i1 E1.y) ?_
  rintro s2 ⟨L2, fw2, j2, E2, i2⟩
  rw [i2]
  refine Ok.both (P := fun s' => ∃ L' fw', Joined B s' L' fw' ∧ Ends B L' s.ic ∧ s'.ic = s.ic) (Ok.ite (fun h0 => j2.mark' hB E2 i2 (E2.w h0)) fun _ => Ok.ret ⟨L2, fw2, j2, E2, i2⟩) ?_
  rintro s3 ⟨L3, fw3, j3, E3, i3⟩
  rw [i3]
  refine Ok.ite (fun h0 => (j3.mark' hB E3 i3 (E3.z h0)).mono ?_) fun _ => Ok.ret ⟨L3, fw3, j3⟩
  rintro s4 ⟨L4, fw4, j4, -, -⟩
  exact ⟨L4, fw4, j4⟩

/-- The joined graph. -/
def Done (B : Base) (s : EGraph) : Prop := ∃ L fw, Joined B s L fw

theorem Iso.finish (hB : NoLoop B) (h : Iso B s L fw) : Ok (both s.joinOk addMarkEdges) (Done B) := by
  have : Ok s.joinOk fun s' => ∃ L', Joined B s' L' fw ∧ Ends B L' s'.ic := by
    unfold joinOk
    refine Ok.bind (h.part.join hB) ?_
    rintro s' ⟨L', P, hi, hg, hs⟩
    refine Ok.ret ⟨L', ⟨P, hs⟩, ?_⟩
    rw [hi]; exact h.ends.grow hg
  refine Ok.both this ?_
  rintro s' ⟨L', j, E⟩
  exact j.markEdges hB E

theorem Iso.isolateA (hB : NoLoop B) (h : Iso B s L fw) : Ok s.isolateA (Done B) := by
  unfold EGraph.isolateA
  exact Ok.both (h.markExt (.inl h.ctx.r)) fun s1 h1 => Ok.both (h1.markDFS _ _) fun s2 h2 => Ok.both h2.markPaths fun s3 h3 => h3.finish hB
theorem Iso.isolateB (hB : NoLoop B) (h : Iso B s L fw) : Ok s.isolateB (Done B) := by
  unfold EGraph.isolateB
  exact Ok.both (h.markExt (.inl h.ctx.r)) fun s1 h1 => Ok.both (h1.markDFS _ _) fun s2 h2 => Ok.both h2.markPaths fun s3 h3 => h3.finish hB
theorem Iso.isolateC (hB : NoLoop B) (h : Iso B s L fw) : Ok s.isolateC (Done B) := by
  unfold EGraph.isolateC
  exact Ok.both h.markC fun s1 h1 => Ok.both h1.markPaths fun s2 h2 => Ok.both (h2.markDFS _ _) fun s3 h3 => h3.finish hB
theorem Iso.isolateD (hB : NoLoop B) (h : Iso B s L fw) : Ok s.isolateD (Done B) := by
  unfold EGraph.isolateD
  exact Ok.both (h.markExt (.inl h.ctx.x)) fun s1 h1 => Ok.both (h1.markDFS _ _) fun s2 h2 => Ok.both h2.markPaths fun s3 h3 => h3.finish hB
theorem Iso.isolateK5 (hB : NoLoop B) (h : Iso B s L fw) : Ok s.isolateK5 (Done B) := by
  unfold EGraph.isolateK5
  exact Ok.both (h.markExt (.inl h.ctx.r)) fun s1 h1 => Ok.both (h1.markDFS _ _) fun s2 h2 => Ok.both h2.markPaths fun s3 h3 => h3.finish hB

theorem Done.minor (h : Done B s) (m : Nat) : Done B (s.addMinor m) := by
  obtain ⟨L, fw, j⟩ := h
  exact ⟨L, fw, j.mv (Mv.setIC _ _)⟩

theorem both_last {o : Option (EGraph × Bool)} {k : EGraph → Option (EGraph × Bool)} {m : Nat} (h : Ok (both o k) (Done B)) :
    Ok (both o fun s => both (k s) fun s => some (s.addMinor m, true)) (Done B) := by
  intro r hr ht
  unfold both at hr h
  obtain ⟨⟨s1, b1⟩, h1, hr⟩ := Option.bind_eq_some_iff.1 hr
  cases b1 with
  | false => cases hr; cases ht
  | true =>
    simp only [if_true] at hr
    obtain ⟨⟨s2, b2⟩, h2, hr⟩ := Option.bind_eq_some_iff.1 hr
    cases b2 with
    | false => cases hr; cases ht
    | true =>
      cases hr
      refine Done.minor (h (s2, true) ?_ rfl) m
      exact Option.bind_eq_some_iff.2 ⟨(s1, true), h1, h2⟩

theorem Iso.isolateE3 (hB : NoLoop B) (h : Iso B s L fw) : Ok s.isolateE3 (Done B) := by
  unfold EGraph.isolateE3
  refine Ok.both (P := fun s => Iso B s L fw) (Ok.ite (fun _ => Ok.both (h.markExt (.inl h.ctx.r)) fun s1 h1 => h1.markExt (.inl h1.ctx.w)) fun _ =>
    Ok.both (h.markExt (.inl h.ctx.x)) fun s1 h1 => h1.markExt (.inr h1.r)) fun s1 h1 => ?_
  exact Ok.both (h1.markDFS _ _) fun s2 h2 => Ok.both h2.markPaths fun s3 h3 => both_last (h3.finish hB)
theorem Iso.isolateE4 (hB : NoLoop B) (h : Iso B s L fw) : Ok s.isolateE4 (Done B) := by
  unfold EGraph.isolateE4
  refine Ok.both (P := fun s => Iso B s L fw) (Ok.ite (fun _ => Ok.both (h.markExt (.inl h.ctx.r)) fun s1 h1 => h1.markExt (.inr h1.r)) fun _ =>
    Ok.both (h.markExt (.inl h.ctx.r)) fun s1 h1 => h1.markExt (.inl h1.ctx.w)) fun s1 h1 => ?_
  exact Ok.both (h1.markDFS _ _) fun s2 h2 => Ok.both h2.markPaths fun s3 h3 => both_last (h3.finish hB)

theorem Iso.isolateE1 (hB : NoLoop B) (h : Iso B s L fw) (hz : L s.ic.z ≠ [] ∧ Up B L s.ic.uz ∧ Up B L s.ic.dz) : Ok s.isolateE1 (Done B) := by
  unfold EGraph.isolateE1
  refine Ok.skip fun t _ => Ok.ite (fun _ => Ok.bind (resetObst_fr (A := B.A) _ _) fun g hg => ?_) fun _ =>
    Ok.ite (fun _ => Ok.bind (resetObst_fr (A := B.A) _ _) fun g hg => ?_) fun _ => Ok.fail
  · refine Iso.isolateC hB ⟨h.part.mv ((Mv.setG s hg).trans (Mv.setIC _ _)), ⟨h.ctx.r, hz.1, h.ctx.y, h.ctx.w⟩, ⟨hz.2, h.ends.y, h.ends.w, fun h0 => absurd rfl h0⟩⟩
  · refine Iso.isolateC hB ⟨h.part.mv ((Mv.setG s hg).trans (Mv.setIC _ _)), ⟨h.ctx.r, h.ctx.x, hz.1, h.ctx.w⟩, ⟨h.ends.x, hz.2, h.ends.w, fun h0 => absurd rfl h0⟩⟩

theorem Iso.isolateE2 (hB : NoLoop B) (h : Iso B s L fw) (hz : L s.ic.z ≠ [] ∧ Up B L s.ic.uz ∧ Up B L s.ic.dz) : Ok s.isolateE2 (Done B) := by
  unfold EGraph.isolateE2
  refine Ok.bind (clearFlags_fr (A := B.A)) fun g hg => ?_
  exact Iso.isolateA hB ⟨h.part.mv ((Mv.setG s hg).trans (Mv.setIC _ _)), ⟨h.ctx.r, h.ctx.x, h.ctx.y, h.ctx.w⟩, ⟨h.ends.x, h.ends.y, fun _ => hz.2, fun h0 => absurd rfl h0⟩⟩

theorem Iso.isolateMinor (hB : NoLoop B) (h : Iso B s L fw) (hz : ZOk B L s.ic) : Ok s.isolateMinor (Done B) := by
  unfold EGraph.isolateMinor
  refine Ok.ite (fun _ => h.isolateA hB) fun _ => Ok.ite (fun _ => h.isolateB hB) fun _ => Ok.ite (fun _ => h.isolateC hB) fun _ => Ok.ite (fun _ => h.isolateD hB) fun _ => ?_
  refine Ok.ite (fun h16 => ?_) fun _ => Ok.fail
  unfold isolateE
  exact Ok.ite (fun _ => h.isolateE1 hB (hz h16)) fun _ => Ok.ite (fun _ => h.isolateE2 hB (hz h16)) fun _ => Ok.ite (fun _ => h.isolateE3 hB) fun _ =>
    Ok.ite (fun _ => h.isolateE4 hB) fun _ => h.isolateK5 hB

/-- The state in which paths of an obstruction to outerplanarity are marked. -/
structure IsoO (B : Base) (s : EGraph) (L fw : Nat → List Nat) : Prop where
  part : Part B s L fw
  ctx : Ctx L s.ic
  ends : Up B L s.ic.v ∧ Up B L s.ic.dw

theorem IsoO.mv (h : IsoO B s L fw) (m : Mv B.A s s') (hi : s'.ic = s.ic) : IsoO B s' L fw := ⟨h.part.mv m, hi ▸ h.ctx, hi ▸ h.ends⟩
theorem IsoO.markExt (h : IsoO B s L fw) {a b : Nat} (hab : L a ≠ [] ∨ b ≠ 0) : Ok (s.markExt a b) fun s' => IsoO B s' L fw :=
  (markExt_fr h.part.lk hab).mono fun _ hr _ => h.mv (.of_rest hr.1 hr.2.1) hr.2.2
theorem IsoO.markDFS (h : IsoO B s L fw) (a b : Nat) : Ok (s.markDFS a b) fun s' => IsoO B s' L fw :=
  (markDFS_fr h.part.lk a b).mono fun _ hr _ => h.mv (.of_rest hr.1 hr.2.1) hr.2.2

theorem IsoO.finish (hB : NoLoop B) (h : IsoO B s L fw) : Ok (both s.joinOk fun s => s.addMarkEdge s.ic.v s.ic.dw) (Done B) := by
  have : Ok s.joinOk fun s' => ∃ L', Joined B s' L' fw ∧ Up B L' s'.ic.v ∧ Up B L' s'.ic.dw := by
    unfold joinOk
    refine Ok.bind (h.part.join hB) ?_
    rintro s' ⟨L', P, hi, hg, hs⟩
    refine Ok.ret ⟨L', ⟨P, hs⟩, ?_⟩
    rw [hi]; exact ⟨h.ends.1.grow hg, h.ends.2.grow hg⟩
  refine Ok.both this ?_
  rintro s' ⟨L', j, h1, h2⟩
  refine (j.mark hB (h1.ne j.part (.refl _ _) j.shut) (h2.ne j.part (.refl _ _) j.shut) h1.1 h2.1.2).mono ?_
  rintro s2 ⟨L2, fw2, j2, -⟩
  exact ⟨L2, fw2, j2⟩

theorem IsoO.isolateMinor (hB : NoLoop B) (h : IsoO B s L fw) : Ok s.isolateOuterMinor (Done B) := by
  have hBE : Ok s.isolateOuterBE (Done B) := by
    unfold isolateOuterBE
    exact Ok.both (h.markExt (.inl h.ctx.r)) fun s1 h1 => Ok.both (h1.markDFS _ _) fun s2 h2 => h2.finish hB
  have hA : Ok s.isolateOuterA (Done B) := by
    unfold isolateOuterA
    exact Ok.both (h.markExt (.inl h.ctx.r)) fun s1 h1 => Ok.both (h1.markDFS _ _) fun s2 h2 => Ok.both (h2.markDFS _ _) fun s3 h3 => h3.finish hB
  unfold isolateOuterMinor
  exact Ok.ite (fun _ => hA) fun _ => Ok.ite (fun _ => hBE) fun _ => Ok.ite (fun _ => hBE) fun _ => Ok.fail

theorem outerContext_spec (h : InCtx B s v L fw) (hv : 1 ≤ v) : Ok s.outerContext fun s' => IsoO B s' L fw := by
  obtain ⟨P, I, C, rfl, -⟩ := h
  unfold outerContext
  have hj : ∀ r : Nat × Bool, (r.2 = true → Up B L s.ic.v ∧ Up B L r.1) → Ok (some (s.setIC { s.ic with dw := r.1 }, r.2)) fun s' => IsoO B s' L fw := by
    intro r hr
    exact Ens.some fun ho => ⟨P.mv (Mv.setIC _ _), ⟨C.r, C.x, C.y, C.w⟩, hr ho⟩
  refine Ok.ite (fun _ => Ok.skip fun c _ => ?_) fun _ => Ok.bind (edgeToCur_spec P I hv C.w) hj
  refine Ok.bind (edgeToSubtree_spec P hv c) fun r hr => hj r fun ho => ?_
  obtain ⟨⟨h1, h2⟩, -⟩ := hr ho
  exact ⟨h1.up, P.up_child h2⟩

theorem outerPath_spec (h : IsoO B s L fw) : Ok s.outerPath fun s' => IsoO B s' L fw := by
  unfold outerPath
  refine Ok.ite (fun _ => ?_) fun _ => Ok.ret h
  refine Ok.bind (closestXYPath_spec h.part.lk h.ctx.r fun _ => h.ctx.w) fun ⟨s1, ok⟩ h1 => Ens.pure fun ho => ?_
  obtain ⟨a, b, c, d, e⟩ := h1 (by simp at ho; exact ho.1)
  have e : s1.ic = _ := e
  refine ⟨h.part.mv (.of_rest a b), ?_, ?_⟩
  · show Ctx L s1.ic
    rw [e]; exact ⟨h.ctx.r, h.ctx.x, h.ctx.y, h.ctx.w⟩
  · show Up B L s1.ic.v ∧ Up B L s1.ic.dw
    rw [e]; exact h.ends

/-- No arc waits any more. -/
def Whole (B : Base) (s : EGraph) : Prop := ∃ L, Joined B s L fun _ => []

theorem putBack_spec (hB : NoLoop B) (hv : 1 ≤ v) : ∀ (fuel : Nat) (s : EGraph) (L fw : Nat → List Nat), Joined B s L fw → Ens (putBack v fuel s) fun s' =>
    ∃ L' fw', Joined B s' L' fw' ∧ fw' v = [] ∧ ∀ u, fw u = [] → fw' u = []
  | 0, s, L, fw, h => by
    unfold putBack
    refine Ens.bind (rdVI_val v) fun r hr => Ens.ite (fun h0 => Ens.pure ⟨L, fw, h, ?_, fun _ h => h⟩) fun _ => Ens.none
    have hN : v ≤ B.N := by have := hr.1; rw [h.part.N] at this; omega
    rw [hr.2] at h0
    exact (h.part.fwl.zero hv hN).1 h0
  | fuel + 1, s, L, fw, h => by
    unfold putBack
    refine Ens.bind (rdVI_val v) fun r hr => ?_
    have hN : v ≤ B.N := by have := hr.1; rw [h.part.N] at this; omega
    rw [hr.2]
    refine Ens.ite (fun h0 => Ens.pure ⟨L, fw, h, (h.part.fwl.zero hv hN).1 h0, fun _ h => h⟩) fun h0 => Ens.skip fun w _ => ?_
    have hf := (h.part.fw_head hv hN).resolve_left h0
    have hne : L v ≠ [] := (Stem.up (L := L) (h.part.up v _ hf)).ne h.part (.refl _ _) h.shut
    refine Ens.bind (h.back hB hne hv w) ?_
    rintro s1 ⟨L1, fw1, j1, -, -, h1⟩
    refine (putBack_spec hB hv fuel s1 L1 fw1 j1).mono ?_
    rintro s2 ⟨L2, fw2, j2, h2, h3⟩
    exact ⟨L2, fw2, j2, h2, fun u hu => h3 u (h1 u hu)⟩

theorem putAll_spec (hB : NoLoop B) (h : Done B s) : Ens ((List.range s.p.g.N).foldlM (fun s i => putBack (i + 1) s.p.g.eSize s) s) (Whole B) := by
  obtain ⟨L, fw, h⟩ := h
  rw [h.part.N]
  refine (Ens.range (R := fun k s' => ∃ L' fw', Joined B s' L' fw' ∧ ∀ u, 1 ≤ u → u ≤ k → fw' u = []) ⟨L, fw, h, fun u h1 h2 => by omega⟩ B.N ?_).mono ?_
  · rintro k s1 hk ⟨L1, fw1, j1, e1⟩
    refine (putBack_spec hB (by omega) _ s1 L1 fw1 j1).mono ?_
    rintro s2 ⟨L2, fw2, j2, h2, h3⟩
    refine ⟨L2, fw2, j2, fun u hu1 hu2 => ?_⟩
    by_cases hu : u = k + 1
    · rw [hu]; exact h2
    · exact h3 u (e1 u hu1 (by omega))
  · rintro s' ⟨L', fw', j, e⟩
    refine ⟨L', ?_⟩
    have : fw' = fun _ => [] := by
      funext u
      rw [List.eq_nil_iff_forall_not_mem]
      intro f hf
      have := (j.part.up u f hf).range
      rw [e u this.1 this.2] at hf
      cases hf
    rw [this] at j; exact j

end Verif.Isolate
