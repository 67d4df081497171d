import Verif.Embed.IsoChord

/-
What the isolation of an obstruction to an outerplanar embedding leaves: a subdivision of K2,3 or K4.
-/
namespace Verif.Isolate
open Verif Verif.Embed Verif.Graph Verif.EGraph Verif.Random Verif.Test Verif.DFS Verif.Props Function

variable {B : Base} {Pl : Plan B} {s s' s0 : EGraph} {G : Gh B.D} {L L' fw PR : Nat → List Nat} {v c R x w y : Nat} {P Q xs : List Nat}
  {t : Nat → Nat} {M M' : Nat → Prop} {g g' : Graph} {fo ba : Nat → Nat}

theorem Cyc.succ (h : Cyc L fo ba R xs) {a : Nat} (ha : a ∈ R :: xs) : ∃ n ∈ R :: xs, twin (fo a) = ba n := by
  obtain ⟨S, T, hS⟩ := List.append_of_mem ha
  obtain ⟨n, T', hT⟩ : ∃ n T', T ++ [R] = n :: T' := List.exists_cons_of_ne_nil (by simp)
  have he : R :: xs ++ [R] = S ++ a :: n :: T' := by rw [hS, List.append_assoc, List.cons_append, hT]
  have h' := h.chain
  rw [List.isChain_iff_forall_rel_of_append_cons_cons] at h'
  exact ⟨n, mem_cyc (P := S ++ [a]) (Q := T') (by rw [he]; simp), h' he⟩

theorem Cyc.pred (h : Cyc L fo ba R xs) {a : Nat} (ha : a ∈ R :: xs) : ∃ n ∈ R :: xs, twin (ba a) = fo n := by
  obtain ⟨n, hn, h1⟩ := h.rev.succ (a := a) (by simpa using ha)
  exact ⟨n, by simpa using hn, h1⟩

/-- The search for the path marks an edge between the two sides. -/
theorem closestXYPath_chord (h : Plot Pl G fw PR v c x P w Q y L t s) : Ens (s.closestXYPath s.ic.r) fun r => r.2 = true → Found B.A t L x P Q y r.1.ic r.1.p.g := by
  have gg := h.stage
  have k := h.play.part.lk
  have hcy := gg.cyc
  unfold closestXYPath
  rw [h.icr]
  rw [if_neg (by show ¬ (c + B.N ≠ s.ic.r ∧ _); rw [h.icr]; simp)]
  have hdec : decide (c + B.N = (s.setIC { s.ic with px := 0, py := 0 }).ic.r) = true := by
    show decide (c + B.N = s.ic.r) = true
    rw [h.icr]; simp
  dsimp only
  rw [hdec]
  let K : Nat → Prop := fun e => ∃ a ∈ (c + B.N) :: (x :: P ++ w :: Q ++ [y]), e = endIn false (L a) ∨ e = endIn true (L a)
  have hK : ∀ e, K (twin e) → K e := by
    rintro e ⟨a, ha, he | he⟩
    · obtain ⟨n, hn, h1⟩ := hcy.succ ha
      exact ⟨n, hn, .inr (by rw [← h1, ← he, twin_twin])⟩
    · obtain ⟨n, hn, h1⟩ := hcy.pred ha
      exact ⟨n, hn, .inl (by rw [← h1, ← he, twin_twin])⟩
  have hR0 : c + B.N ∈ (c + B.N) :: (x :: P ++ w :: Q ++ [y]) := List.mem_cons_self
  have hhide := hideInternalEdges_veil (K := K) (R := c + B.N) k hK (hcy.ne _ hR0) (cyc_two hcy k.links.disj).1 ⟨_, hR0, .inr rfl⟩ (by
    rintro e he ⟨a, ha, rfl | rfl⟩
    · have := k.links.disj _ _ _ he (hcy.fo_mem ha)
      subst this; exact .inl rfl
    · have := k.links.disj _ _ _ he (hcy.ba_mem ha)
      subst this; exact .inr rfl)
  refine Ens.bind hhide fun g1 ⟨L1, hv, hL1⟩ => ?_
  have hend : ∀ a ∈ (c + B.N) :: (x :: P ++ w :: Q ++ [y]), ∀ b, endIn b (L1 a) = endIn b (L a) := by
    intro a ha b
    refine endIn_sub (hv.sub a) (k.links.nodup a) b (hv.keep a _ (endIn_mem' (hcy.ne a ha) b) ⟨a, ha, ?_⟩)
    cases b
    · exact .inl rfl
    · exact .inr rfl
  have F : Face L1 (c + B.N) x P w Q y := by
    refine ⟨Cyc.ext (fo := fun a => endIn false (L a)) (ba := fun a => endIn true (L a)) ⟨hcy.nodup, hcy.chain, fun a ha => ⟨false, hend a ha _, hend a ha _⟩, fun a ha => ?_⟩
      (fun a ha => hend a ha _) (fun a ha => hend a ha _), ?_, ?_, ?_⟩
    · exact List.ne_nil_of_mem (hv.keep a _ (endIn_mem' (hcy.ne a ha) false) ⟨a, ha, .inl rfl⟩)
    · intro e he
      rw [hend _ hR0, hend _ hR0]
      rw [hL1] at he
      simpa using he
    · intro a ha e he
      obtain ⟨b, hb⟩ := hv.lk.pair a e he
      obtain ⟨b', hb', h2⟩ := gg.ring a ha e ((hv.sub a).subset he)
      have := k.links.disj _ _ _ ((hv.sub b).subset hb) h2
      subst this
      exact ⟨b, hb', hb⟩
    · intro a ha; have := (gg.inn a ha).1; omega
  have hob : ∀ z, ob g1 z = ob s.p.g z := fun z => by unfold ob; rw [hv.vf z]
  have hcalm : Calm B.A t L1 x P Q y g1 := ⟨hv.lk, h.play.tag.flags fun e _ => hv.kf e, fun z hz => by rw [hob, h.left z hz], fun z hz => by rw [hob, h.right z hz]⟩
  rw [if_pos rfl]
  refine Ens.bind (getArc_val _ true) fun e he => ?_
  have he' : e = endIn true (L1 (c + B.N)) := by
    rw [he.2, hv.lk.links.vlink _ true he.1]
    show endIn true (L1 s.ic.r) = _
    rw [h.icr]
  subst he'
  rw [if_pos rfl]
  have hw' : ((s.setIC { s.ic with px := 0, py := 0 }).setG g1).ic.w = w := h.icw
  rw [hw']
  refine Ens.bind (xyLoop_start (base := g1.stack) F _ ((s.setIC { s.ic with px := 0, py := 0 }).setG g1) hcalm rfl (fun a ha hh => ?_) rfl) fun s1 h1 => ?_
  · have := gg.inn a ha
    refine h.vis a this.1 this.2.1 ?_
    unfold Seen at hh ⊢
    have hh : (g1.V a).flags % 2 = 1 := hh
    rwa [hv.vf a] at hh
  refine Ens.bind (P := fun g2 => KF s1.p.g g2) ?_ fun g2 h2 => Ens.bind (restoreHidden_kf _ g2 _) fun ⟨g3, r⟩ h3 => ?_
  · unfold cutStack
    exact Ens.ite (fun _ => Ens.some fun _ => rfl) fun _ => Ens.none
  refine Ens.ite (fun _ => Ens.pure fun hh => by cases hh) fun _ => Ens.pure fun _ => ?_
  have hfin : Found B.A t L x P Q y s1.ic g3 := by
    rcases h1 with h1 | ⟨a, ha, b, hb, j, hj, hj', ht⟩
    · exact .inl h1
    · exact .inr ⟨a, ha, b, hb, j, (hv.sub a).subset hj, (hv.sub b).subset hj', ht.flags fun e _ => (h2.trans h3) e⟩
  by_cases hpy : (s1.setG g3).ic.py = 0
  · rw [if_pos hpy]; exact .inl hpy
  · rw [if_neg hpy]; exact hfin

/-- The state before the obstruction is marked, in the third case. -/
structure PlotE (Pl : Plan B) (G : Gh B.D) (fw PR : Nat → List Nat) (v c : Nat) (x : Nat) (P : List Nat) (w : Nat) (Q : List Nat) (y : Nat) (L : Nat → List Nat) (t : Nat → Nat)
    (s : EGraph) : Prop where
  stage : Stage Pl G fw PR v c (x :: P ++ w :: Q ++ [y]) L t
  icv : s.ic.v = v
  icr : s.ic.r = c + B.N
  icw : s.ic.w = w
  mt : s.ic.minorType = 16
  par : B.par c = v
  dw : s.ic.dw = w
  edge : ∃ f ∈ fw v, B.own (twin f) = s.ic.dw
  play : ∃ a ∈ x :: P, ∃ b ∈ Q ++ [y], ∃ j ∈ L a, twin j ∈ L b ∧ Play Pl fw PR v L t s fun e => e = j ∨ e = twin j

theorem outerPath_plot (h : Plot Pl G fw PR v c x P w Q y L t s) :
    Ok s.outerPath fun s' => (Plot Pl G fw PR v c x P w Q y L t s' ∧ s'.ic.minorType ≠ 16) ∨ PlotE Pl G fw PR v c x P w Q y L t s' := by
  unfold outerPath
  have hkind : (s.ic.minorType = 1 ∨ s.ic.minorType = 2) ∨ (s.ic.minorType = 16 ∧ B.par c = v ∧ s.ic.dw = w) := by
    cases h.kind with
    | A a _ _ => exact .inl (.inl a)
    | B a _ _ => exact .inl (.inr a)
    | E a b d => exact .inr ⟨a, b, d⟩
  rcases hkind with hk | ⟨hm, hp, hd⟩
  · rw [if_neg (by rcases hk with hk | hk <;> rw [hk] <;> decide)]
    exact Ok.ret (.inl ⟨h, by rcases hk with hk | hk <;> rw [hk] <;> decide⟩)
  · rw [if_pos (by rw [hm]; decide)]
    have hr : L s.ic.r ≠ [] := by rw [h.icr]; exact h.stage.cyc.ne _ List.mem_cons_self
    have hw : L s.ic.w ≠ [] := by rw [h.icw]; exact h.stage.cyc.ne _ (by simp)
    refine Ok.bind ((closestXYPath_spec h.play.part.lk hr fun _ => hw).and (closestXYPath_chord h)) fun ⟨s1, ok⟩ ⟨h1, h2⟩ => Ens.pure fun ho => ?_
    have ho : ok = true ∧ s1.ic.py ≠ 0 := by simpa using ho
    obtain ⟨f1, r1, a1, b1, i1⟩ := h1 ho.1
    have i1 : s1.ic = { s.ic with px := a1, py := b1 } := i1
    have f1 : Fr B.A s.p.g s1.p.g := f1
    have r1 : Rest s s1 := r1
    obtain ⟨a, ha, b, hb, j, hj, hj', ht⟩ := (h2 ho.1).resolve_left ho.2
    refine .inr ⟨h.stage, ?_, ?_, ?_, ?_, hp, ?_, ?_, a, ha, b, hb, j, hj, hj', h.play.mv (.of_rest f1 r1) r1.roots ht⟩
    · show s1.ic.v = v; rw [i1]; exact h.icv
    · show s1.ic.r = _; rw [i1]; exact h.icr
    · show s1.ic.w = _; rw [i1]; exact h.icw
    · show s1.ic.minorType = _; rw [i1]; exact hm
    · show s1.ic.dw = _; rw [i1]; exact hd
    · show ∃ f ∈ fw v, B.own (twin f) = s1.ic.dw; rw [i1]; exact h.edge

theorem Climb.self (hw : 1 ≤ w) (hN : w ≤ B.N) {l : List Nat} (h : Climb B w w l) : l = [] := by
  cases l with
  | nil => rfl
  | cons k l =>
    obtain ⟨-, -, h⟩ := h
    have h1 := Climb.le (d := 0) h
    have h2 := B.par_lt w hw hN
    omega

theorem isolateOuterE_ready (hB : NoLoop B) (h1 : 1 ≤ v) (h2 : v ≤ B.N) (h : PlotE Pl G fw PR v c x P w Q y L t s) : Ok s.isolateOuterBE (Ready B t) := by
  have gg := h.stage
  have hw := gg.inn w (by simp)
  obtain ⟨a, ha, b, hb, j, hj, hj', hplay⟩ := h.play
  have hP := hplay.part
  unfold isolateOuterBE
  rw [h.icr]
  refine Ok.both (markExt_play gg hplay) fun s1 ⟨i1, p1⟩ => ?_
  rw [i1, h.icw, h.dw]
  refine Ok.both (markDFS_play gg hw.2.1 p1 w) fun s3 ⟨i3, lw, cw, p3⟩ => ?_
  have i3 : s3.ic = s.ic := by rw [i3, i1]
  refine (finish_play hB p3 (by rw [i3]; exact h.icv) h1 h2 (by rw [i3]; exact h.edge)).mono ?_
  rintro s4 ⟨f, hf, hfd, hT⟩
  rw [i3, h.dw] at hfd
  rw [B.home_le hw.2.1] at cw
  obtain rfl := cw.self hw.1 hw.2.1
  have hT' : Tag B.A t (fun e => Along L (x :: P ++ w :: Q ++ [y] ++ [c + B.N]) e ∨ (e = f ∨ e = twin f) ∨ (e = j ∨ e = twin j)) s4.p.g := by
    refine hT.mono fun e _ => ?_
    have : ¬ Trail B [] e := by rintro ⟨k, hk, _⟩; cases hk
    tauto
  refine ⟨_, hT', ?_, fun g' L' hr => .inr ?_⟩
  · rintro e (hh | (hh | hh) | (hh | hh))
    · exact .inl hh.tw
    · exact .inr (.inl (.inr (twin_flip.1 hh)))
    · exact .inr (.inl (.inl (by rw [twin_flip, twin_twin] at hh; exact hh)))
    · exact .inr (.inr (.inr (twin_flip.1 hh)))
    · exact .inr (.inr (.inl (by rw [twin_flip, twin_twin] at hh; exact hh)))
  · obtain ⟨P1, P2, e1⟩ := List.append_of_mem ha
    obtain ⟨Q1, Q2, e2⟩ := List.append_of_mem hb
    have ha' := gg.inn a (by simp at ha ⊢; tauto)
    have hb' := gg.inn b (by simp at hb ⊢; tauto)
    refine gg.k4 (P1 := P1) (P2 := P2) (Q1 := Q1) (Q2 := Q2) ?_ hP hr (f := f) (j := j) (a := a) (b := b) ?_ hfd ?_ ?_ fun e => ⟨fun hh => hh.2, fun hh => ⟨?_, hh⟩⟩
    · have : x :: P ++ w :: Q ++ [y] = (x :: P) ++ w :: (Q ++ [y]) := by simp
      rw [this, e1, e2]; simp
    · rw [hP.own v f hf, h.par]
    · rw [hP.home a j hj, B.home_le ha'.2.1]
    · rw [hP.home b _ hj', B.home_le hb'.2.1]
    · rcases hh with hh | (rfl | rfl) | (rfl | rfl)
      · exact gg.along hP hh
      · exact hP.arc v _ hf
      · exact B.tw _ (hP.arc v _ hf)
      · exact hP.lk.arc a _ hj
      · exact hP.lk.arc b _ hj'

theorem isolateOuterMinor_ready (hB : NoLoop B) (h1 : 1 ≤ v) (h2 : v ≤ B.N)
    (h : (Plot Pl G fw PR v c x P w Q y L t s ∧ s.ic.minorType ≠ 16) ∨ PlotE Pl G fw PR v c x P w Q y L t s) : Ok s.isolateOuterMinor (Ready B t) := by
  unfold isolateOuterMinor
  rcases h with ⟨h, hm⟩ | h
  · cases h.kind with
    | A a hp hd => rw [if_pos (by rw [a]; decide)]; exact isolateOuterA_ready hB h1 h2 h hp hd
    | B a hp hd => rw [if_neg (by rw [a]; decide), if_pos (by rw [a]; decide)]; exact isolateOuterB_ready hB h1 h2 h hp hd
    | E a _ _ => exact absurd a hm
  · rw [if_neg (by rw [h.mt]; decide), if_neg (by rw [h.mt]; decide), if_pos (by rw [h.mt]; decide)]
    exact isolateOuterE_ready hB h1 h2 h

/-- The isolation leaves a subdivision. -/
theorem isolateOuter_subdivision {p0 : PGraph} {rot : Nat → List Nat} {num inv : Nat → Nat} (hB : NoLoop B) (S : Sorted p0 rot B num inv) (hI : PInv p0 rot) (hv : 1 ≤ v) (hap : B.ap = true)
    (h : Given Pl s v) : Ok (s.isolateOuter v s.ic.r) fun s' => IsSubdivision s'.p.g 5 edgesK23 ∨ IsSubdivision s'.p.g 4 edgesK4 := by
  have hn : ¬ B.A 0 := fun h0 => by have := (B.rng 0 h0).1; omega
  obtain ⟨⟨hb, G, fw, PR, st, rg, dn⟩, -, c0, h0, hr⟩ := h
  obtain ⟨hP, hI'⟩ := Part.start hB hn st dn
  rw [hr]
  unfold isolateOuter
  have hA : ∀ e, B.A e → 2 ≤ e ∧ e < s.p.g.inUse := by
    intro e he
    obtain ⟨u, hu⟩ := (S.A e).1 he
    have hbel := hI.inv.below u e hu
    unfold inUse at hbel ⊢
    rw [hP.fix.M, hP.fix.holes, S.M, S.holes]
    exact ⟨(B.rng e he).1, hbel⟩
  have hT0 : Tag B.A (fun e => (s.p.g.E e).flags ||| 1) (fun e => (s.p.g.E e).flags &&& 1 ≠ 0) s.p.g := fun e _ => ⟨rfl, .rfl⟩
  refine Ok.bind ((clearFlags_fr (A := B.A)).and ((clearFlags_tag hT0 hA).and (clearFlags_stack.and clearFlags_un))) fun g ⟨f1, t1, k1, u1⟩ => ?_
  have m := Mv.setG s f1
  have hscene : Ok ((s.setG g).initContext true v (c0 + B.N)) fun s' => ∃ c x P w Q y L, Scene Pl G fw PR v c x P w Q y L (fun e => (s.p.g.E e).flags ||| 1) s' := by
    refine initContext_play (s := s.setG g) hB hn st rg dn hap rfl rfl f1 ?_ h0 t1 (fun _ _ => rfl) fun z z1 z2 => ?_
    · show Below B g
      unfold Below
      rw [k1]; exact hb
    · refine u1 z z1 ?_
      rw [hP.N]; omega
  refine Ok.both ((chooseOuter_spec hB (hP.mv m) (hI'.mv m) (c0 + B.N)).and (chooseOuter_plot hscene)) fun s1 ⟨⟨L1, fw1, p1⟩, c, x, P, w, Q, y, L, ⟨s1', sc, mm, e1⟩, kd⟩ => ?_
  subst e1
  refine Ok.both ((outerContext_spec p1 hv).and (outerContext_plot hv sc kd)) fun s2 ⟨p2, q2⟩ => ?_
  have hvN : v ≤ B.N := by
    obtain ⟨f, hf, -⟩ := q2.edge
    have := q2.play.part.up v f hf
    obtain ⟨k, hk, hk'⟩ := this
    have := B.par_lt k hk.1 hk.2.1
    have := hk.2.1
    omega
  refine Ok.both ((outerPath_spec p2).and (outerPath_plot q2)) fun s3 ⟨p3, q3⟩ => ?_
  refine Ok.both ((p3.isolateMinor hB).and (isolateOuterMinor_ready hB hv hvN q3)) fun s4 ⟨p4, M, hT, ht, hsub⟩ => ?_
  exact (deleteUnmarked_kept hB S hI p4 hT ht).mono fun s5 ⟨L', hr⟩ => hsub _ _ hr

end Verif.Isolate
