import Verif.Embed.Frames

/-
What is met when both traversals of a component stop and something is left to embed between.
-/
namespace Verif.Embed
open Verif Verif.Graph Verif.EGraph Equiv Equiv.Perm Verif.Map Function
open Verif.Props (AncEq Anc)

variable {B : Base} {Pl : Plan B} {G : Gh B.D} {s s1 : EGraph} {fw PR PR1 : Nat → List Nat} {v c0 : Nat} {p : Past B}

theorem act_sub (hg : Good B.N B.par B.α G) (hsub : ∀ u, (fw u).Sublist (Pl.fw0 u)) {E h : Nat} (hA : Hot Pl G fw v h) (hE : AncEq B.par E h) :
    ToU Pl v (B.Sub E) :=
  (hA.toU hsub).mono fun _ hz => ⟨hz.1, hE.trans (hang_anc hg hz)⟩

/-- Two components below a vertex, both with edges to `v` and to before `v`: one by which `h` was reached, one left. -/
theorem twin_comps (o : Orig Pl p v c0) (e : Evo Pl c0 v p.G0 p.fw p.PR G fw PR) (hg : Good B.N B.par B.α G) (h0 : G.Live B.N c0)
    (dn : Dn Pl s G fw PR v) (hsub : ∀ u, (fw u).Sublist (Pl.fw0 u)) {R : List Nat} {w h : Nat} (hl : Link Pl p v c0 s1 PR1 R w h) (hne : h ≠ w)
    (hpe : pe s1 w = 0 → pe s w = 0) (hPR : ∀ k ∈ PR w, k ∈ PR1 w) (hn : Need Pl G fw v w) (hvw : v < w) (hA : Hot Pl G fw v h)
    (hh : 1 ≤ h ∧ h ≤ B.N) (hcp : G.cp h = c0) :
    ∃ E E', p.G0.Live B.N E ∧ p.G0.Live B.N E' ∧ E ≠ E' ∧ B.par E = w ∧ B.par E' = w ∧ ToV Pl v (B.Sub E) ∧ ToU Pl v (B.Sub E) ∧
      ToV Pl v (B.Sub E') ∧ ToU Pl v (B.Sub E') ∧ AncEq B.par E h ∧ (∀ z ∈ R, ¬ AncEq B.par E z) ∧ ¬ G.Live B.N E ∧ G.Live B.N E' := by
  obtain ⟨E, l, e1, e2, e3, e4, e5, e6⟩ := hl.resolve_left hne
  have hAr : ∀ f ∈ fw v, B.A f := fun f hf => Pl.fw_arc v f ((hsub v).subset hf)
  have hPRw : PR w ≠ [] := (dn.pert hAr hvw hn).resolve_left fun hk => hk (hpe e5)
  obtain ⟨E', hE'⟩ := List.exists_mem_of_ne_nil _ hPRw
  obtain ⟨r1, r2, r3⟩ := dn.reg w E' hE'
  have hdead : ¬ G.Live B.N E := fun hk => sep hg h0 o.par hk e1.big hh hcp e3
  have hU : ToU Pl v (B.Sub E) := act_sub hg hsub hA e3
  have hr' := hg.root E' r1
  have hlt := B.par_lt E' r1.1 hr'.1
  have hU' : ToU Pl v (B.Sub E') := by
    cases hap : B.ap
    · exact low_toU Pl ⟨r1.1, hr'.1⟩ (by omega) (e6 (hU.low hap fun _ hz => hz) E' (hPR E' hE'))
    · exact .inr ⟨hap, E', ⟨r1.1, hr'.1⟩, ⟨r1.1, hr'.1⟩, .refl _⟩
  obtain ⟨f, f1, f2⟩ := dn.wit w E' hE'
  have f3 := (hsub v).subset f1
  obtain ⟨f', g1, g2, g3⟩ := e1.wit
  refine ⟨E, E', e1.live, e.live E' r1, fun hh => hdead (hh ▸ r1), e2, r2, ⟨f', g2, (Pl.fw_range v f' g2).2.2, g3⟩, hU,
    ⟨f, f3, (Pl.fw_range v f f3).2.2, f2⟩, hU', e3, e4, hdead, r1⟩

/-- A vertex with an edge to before `v` outside of the component. -/
theorem rest_of (o : Orig Pl p v c0) (hg : Good B.N B.par B.α G) (h0 : G.Live B.N c0) (hsub : ∀ u, (fw u).Sublist (Pl.fw0 u)) {c w y : Nat}
    (hA : Hot Pl G fw v y) (hy : AncEq B.par c0 y) (hvy : v < y) (hcy : ¬ AncEq B.par c y) (hw : 1 ≤ w ∧ w ≤ B.N) (hcw : AncEq B.par c w) (hcp : G.cp w = c0) :
    ToU Pl v (B.Rest c0 c) := by
  refine (hA.toU hsub).mono ?_
  intro z hz
  refine ⟨⟨hz.1, hy.trans (hang_anc hg hz)⟩, fun hcz => ?_⟩
  obtain ⟨_, rfl | ⟨k, k1, k2, k3⟩⟩ := hz
  · exact hcy hcz
  · have hk : ¬ AncEq B.par k w := sep hg h0 o.par k1 (by rw [k2]; exact hvy) hw hcp
    rcases AncEq.down hcz k3 with q | q
    · rcases q.cases with rfl | ⟨_, q⟩
      · exact hk hcw
      · rw [k2] at q; exact hcy q
    · exact hk (q.trans hcw)

theorem link_toU (e : Evo Pl c0 v p.G0 p.fw p.PR G fw PR) (hg : Good B.N B.par B.α G) (hsub : ∀ u, (fw u).Sublist (Pl.fw0 u)) {p' : Past B}
    (hp' : p'.G0 = p.G0) {R : List Nat} {q h : Nat} (hl : Link Pl p' v c0 s1 PR1 R q h) (hA : Hot Pl G fw v h) : ToU Pl v (Hang p.G0 q) := by
  refine (hA.toU hsub).mono ?_
  intro z hz
  rcases hl with rfl | ⟨E, l, e1, e2, e3, _⟩
  · exact hz.mono e.live
  · exact ⟨hz.1, .inr ⟨E, hp' ▸ e1.live, e2, e3.trans (hang_anc hg hz)⟩⟩

/-- A component entered, reached on to `q`; a vertex with something left to embed for `v` after `q`. -/
theorem frame_bad (o : Orig Pl p v c0) (hends : Ends0 Pl p v) {c q w : Nat} {d l : List Nat} (hE : Entered Pl p v c0 c (d ++ q :: l))
    (hw : w ∈ l) (hq : ToU Pl v (Hang p.G0 q)) (hn : Need Pl p.G0 p.fw v w) (hR : ToU Pl v (B.Rest c0 c)) : B.Bad := by
  obtain ⟨F, hS, hsF⟩ := o.site hE.live hE.ne hE.below hE.ring
  have hnd := hE.nodup
  have hwV := hn.toV o.sub
  cases d with
  | nil =>
    rw [List.nil_append] at hsF hnd
    have hqV := hE.first q rfl
    have hwq : w ≠ q := by rintro rfl; simp [hw] at hnd
    obtain ⟨z, hz⟩ : ∃ z, (q :: l).getLast? = some z := ⟨_, List.getLast?_eq_some_getLast (by simp)⟩
    rcases hE.pref hends q z rfl hz hq with h1 | h1
    · by_cases hwz : w = z
      · subst hwz
        exact hS.three (((List.singleton_sublist.2 hw).cons_cons q).trans hsF) hqV hq hwV h1 hR
      · exact hS.one ((ends_sub (l := q :: l) rfl hz (by simp [hw]) hwq hwz).trans hsF) hq hwV h1
    · exact absurd (h1 w (by simp [hw]) hn) hwq
  | cons a d =>
    have haV := hE.first a rfl
    refine hS.two (a := a) (w := q) (b := w) (List.Sublist.trans ?_ hsF) haV hq hwV hR
    refine List.Sublist.cons_cons _ (List.Sublist.trans ?_ (List.sublist_append_right d (q :: l)))
    exact (List.singleton_sublist.2 hw).cons_cons q

theorem sub_mid {a m b : List Nat} {w q : Nat} (hnd : (a ++ m ++ b).Nodup) (hs : [w, q].Sublist (a ++ m ++ b)) (hw : w ∈ m) (hq : q ∉ b) :
    [w, q].Sublist m := by
  obtain ⟨l1, l2, h1, h2, h3⟩ := List.sublist_append_iff.1 hs
  have e2 : l2 = [] := by
    rcases List.eq_nil_or_concat l2 with h | ⟨l, x, h⟩
    · exact h
    · exfalso
      rw [List.concat_eq_append] at h
      have : x = q := by
        have := congrArg List.getLast? h1
        rw [h] at this
        simp at this; exact this.symm
      exact hq (h3.subset (by rw [h, this]; simp))
  rw [e2, List.append_nil] at h1
  subst h1
  obtain ⟨l1, l2, h1, h2, h3⟩ := List.sublist_append_iff.1 h2
  cases l1 with
  | nil => rw [List.nil_append] at h1; rw [h1]; exact h3
  | cons x l1 =>
    exfalso
    simp only [List.cons_append, List.cons.injEq] at h1
    obtain ⟨rfl, _⟩ := h1
    have := h2.subset (List.mem_cons_self)
    rw [List.append_assoc, List.nodup_append] at hnd
    exact hnd.2.2 w this w (by simp [hw]) rfl

theorem mem_split {F : List Nat} {w q : Nat} (hw : w ∈ F) (hq : q ∈ F) (hne : q ≠ w) : ∃ I I', F = I ++ w :: I' ∧ (q ∈ I ∨ q ∈ I') := by
  obtain ⟨I, I', h⟩ := List.append_of_mem hw
  refine ⟨I, I', h, ?_⟩
  rw [h] at hq
  simpa [hne] using hq

/-- Both traversals have stopped, and something is left to embed for `v` between the two stops `x` and `y`. -/
theorem final_bad (o : Orig Pl p v c0) (hbase : p.base = [c0]) (e : Evo Pl c0 v p.G0 p.fw p.PR G fw PR) (hg : Good B.N B.par B.α G)
    (h0 : G.Live B.N c0) (dn : Dn Pl s G fw PR v) (hsub : ∀ u, (fw u).Sublist (Pl.fw0 u)) (hends : Ends0 Pl p v) {x y w : Nat}
    {T0 T1 : List Nat} {gS : Gh B.D} {fS PS : Nat → List Nat} {K0 K1 : List (Nat × List Nat × List Nat)} (F0 : Fr Pl p v c0 s1 PR1 K0 (x :: T0))
    (F1 : Fr Pl { p with base := (x :: T0).reverse, gS := gS, fS := fS, PS := PS } v c0 s PR K1 (y :: T1))
    (hpe : pe s1 w = 0 → pe s w = 0) (hPR : ∀ z, ∀ k ∈ PR z, k ∈ PR1 z) (hx : Hot Pl G fw v x) (hy : Hot Pl G fw v y)
    (hV0 : ∀ z ∈ x :: T0, (1 ≤ z ∧ z ≤ B.N) ∧ G.cp z = c0) (hV1 : ∀ z ∈ y :: T1, (1 ≤ z ∧ z ≤ B.N) ∧ G.cp z = c0)
    (hnd : (x :: T0).Nodup) (hw : w ∈ y :: T1) (hn : Need Pl G fw v w) (hwx : w ≠ x) (hwy : w ≠ y) : B.Bad := by
  have hanc : ∀ z, (1 ≤ z ∧ z ≤ B.N) ∧ G.cp z = c0 → AncEq B.par c0 z ∧ v < z := by
    rintro z ⟨z1, z2⟩
    have q1 := hg.anc B.par_lt z z1.1 z1.2
    rw [z2] at q1
    have q2 := B.anc_le q1 z1.1 z1.2
    have q3 := B.par_lt c0 h0.1 (hg.root c0 h0).1
    rw [o.par] at q3
    exact ⟨q1, by omega⟩
  have o1 : Orig Pl { p with base := (x :: T0).reverse, gS := gS, fS := fS, PS := PS } v c0 := ⟨o.good, o.live, o.par, o.sub, o.act, o.rim, o.full, o.ord⟩
  have hnw : Need Pl p.G0 p.fw v w := hn.mono e.live (e.sub v)
  have hwc := hV1 w hw
  have hxc := hV0 x (by simp)
  have hyc := hV1 y (by simp)
  have hvw := (hanc w hwc).2
  rcases F1.pos o1 hw with ⟨A, L, q, R, q1, q2, q3, q4⟩ | ⟨c, d, a, q, l, V', q1, q2, q3, q4, q5, q6⟩
  · have hVR : x :: T0 = R.reverse ++ q :: A.reverse := by
      have := congrArg List.reverse q1
      simpa using this
    have hxR : x ∈ q :: R := by
      rcases List.eq_nil_or_concat R with rfl | ⟨R', r, rfl⟩
      · simp at hVR; simp [hVR.1]
      · rw [List.concat_eq_append] at *
        simp at hVR; simp [hVR.1]
    have hwV : w ∈ x :: T0 := by
      rw [hVR]
      rcases List.mem_cons.1 q3 with rfl | hh <;> simp [*]
    -- the second traversal went on from `w` itself
    have hfar : ∀ {E}, AncEq B.par E x → ∀ {E'}, (∀ z ∈ q :: R, ¬ AncEq B.par E' z) → E ≠ E' := by
      rintro E h1 E' h2 rfl
      exact h2 x hxR h1
    rcases F0.pos o hwV with ⟨A', L', q', R', r1, r2, r3, r4⟩ | ⟨c, d, a, q', l, V', r1, r2, r3, r4, r5, r6⟩
    · rw [hbase] at r1
      have hA' : A' = [] ∧ q' = c0 ∧ R' = [] := by
        cases A' with
        | nil => simp at r1; exact ⟨rfl, r1.1.symm, r1.2⟩
        | cons a A' => simp at r1
      obtain ⟨rfl, rfl, rfl⟩ := hA'
      have hwq' : w = q' := by simpa using r3
      subst hwq'
      have hqw : q = w := by
        by_contra hqw
        have hwR : w ∈ R := by
          rcases List.mem_cons.1 q3 with hh | hh
          · exact absurd hh.symm hqw
          · exact hh
        have hl : (x :: T0).getLast? = some w := by rw [r2]; simp
        rw [hVR] at hl
        have : w ∈ q :: A.reverse := by
          rw [List.getLast?_append] at hl
          cases hh : (q :: A.reverse).getLast? with
          | none => simp at hh
          | some z =>
            rw [hh] at hl
            simp only [Option.some_or, Option.some.injEq] at hl
            exact hl ▸ List.mem_of_getLast? hh
        rw [hVR, List.nodup_append] at hnd
        exact hnd.2.2 w (by simpa using hwR) w this rfl
      subst hqw
      obtain ⟨E, E2, a1, a2, a3, a4, a5, a6, a7, a8, a9, a10, a11, a12, a13⟩ :=
        twin_comps o e hg h0 dn hsub r4 (Ne.symm hwx) hpe (hPR _) hn hvw hx hxc.1 hxc.2
      obtain ⟨E', E3, b1, b2, b3, b4, b5, b6, b7, b8, b9, b10, b11, b12, b13⟩ :=
        twin_comps o1 (by exact e) hg h0 dn hsub q4 (Ne.symm hwy) id (fun _ h => h) hn hvw hy hyc.1 hyc.2
      exact obs5 o.good o.child o.par ⟨hwc.1, (hanc _ hwc).1⟩ a1 b1 a2 a4 b4 a5 (hfar a10 b11) a3
        (fun hh => b12 (hh ▸ a13)) a6 b6 a8 a7 b7 a9
    · have hcw : AncEq B.par c w := (r1.sub o (x := w) (by simp at r3 ⊢; exact .inr r3)).2.2
      obtain ⟨F, hS, hsF⟩ := o.site r1.live r1.ne r1.below r1.ring
      have hwF : w ∈ F := hsF.subset (List.mem_append_right d r3)
      have hq'F : q' ∈ F := hsF.subset (by simp)
      have hqU : ToU Pl v (Hang p.G0 q) := link_toU (p' := { p with base := (x :: T0).reverse, gS := gS, fS := fS, PS := PS }) e hg hsub rfl q4 hy
      have hq'U : ToU Pl v (Hang p.G0 q') := link_toU e hg hsub rfl r5 hx
      have hposq : AncEq B.par c y → q = w ∨ [w, q].Sublist (q' :: l) := by
        intro hcy
        by_cases hqw : q = w
        · exact .inl hqw
        · right
          have hwR : w ∈ R := by
            rcases List.mem_cons.1 q3 with hh | hh
            · exact absurd hh.symm hqw
            · exact hh
          have hsub2 : [w, q].Sublist (a ++ (q' :: l) ++ V') := by
            rw [← r2, hVR]
            exact (List.singleton_sublist.2 (by simpa using hwR)).append (List.Sublist.cons_cons q (List.nil_sublist _))
          refine sub_mid (by rw [← r2]; exact hnd) hsub2 r3 ?_
          intro hqV
          have hnq := r6 q hqV
          rcases q4 with rfl | ⟨E', l', e1, e2, e3, e4, _⟩
          · exact hnq hcy
          · have hE'w := e4 w q3
            rcases AncEq.down hcy e3 with k | k
            · rcases k.cases with rfl | ⟨_, k⟩
              · exact hE'w hcw
              · rw [e2] at k; exact hnq k
            · exact hE'w (k.trans hcw)
      by_cases hwq' : w = q'
      · subst hwq'
        obtain ⟨E, E2, a1, a2, a3, a4, a5, a6, a7, a8, a9, a10, a11, a12, a13⟩ :=
          twin_comps o e hg h0 dn hsub r5 (Ne.symm hwx) hpe (hPR _) hn hvw hx hxc.1 hxc.2
        by_cases hqw : q = w
        · subst hqw
          obtain ⟨E', E3, b1, b2, b3, b4, b5, b6, b7, b8, b9, b10, b11, b12, b13⟩ :=
            twin_comps o1 (by exact e) hg h0 dn hsub q4 (Ne.symm hwy) id (fun _ h => h) hn hvw hy hyc.1 hyc.2
          exact obs5 o.good o.child o.par ⟨hwc.1, (hanc _ hwc).1⟩ a1 b1 a2 a4 b4 a5 (hfar a10 b11) a3
            (fun hh => b12 (hh ▸ a13)) a6 b6 a8 a7 b7 a9
        · by_cases hcy : AncEq B.par c y
          · have hs2 := (hposq hcy).resolve_left hqw
            obtain ⟨I, I', e1, e2⟩ := mem_split hwF (hsF.subset (List.mem_append_right d (hs2.subset (by simp)))) hqw
            refine hS.obs4 e1 a1 a2 a3 a4 a5 a6 a7 a8 a9 (hqU.mono fun z hz => ?_)
            rcases e2 with e2 | e2
            · exact .inl (.inr (hangs_of e2 hz))
            · exact .inr (hangs_of e2 hz)
          · obtain ⟨I, I', e1⟩ := List.append_of_mem hwF
            exact hS.obs4 e1 a1 a2 a3 a4 a5 a6 a7 a8 a9
              ((rest_of o hg h0 hsub hy (hanc y hyc).1 (hanc y hyc).2 hcy hwc.1 hcw hwc.2).mono fun _ hz => .inl (.inl hz))
      · have hwl : w ∈ l := by simpa [hwq'] using r3
        by_cases hcy : AncEq B.par c y
        · rcases hposq hcy with hqw | hs2
          · subst hqw
            obtain ⟨E', E3, b1, b2, b3, b4, b5, b6, b7, b8, b9, b10, b11, b12, b13⟩ :=
              twin_comps o1 (by exact e) hg h0 dn hsub q4 (Ne.symm hwy) id (fun _ h => h) hn hvw hy hyc.1 hyc.2
            obtain ⟨I, I', e1, e2⟩ := mem_split hwF hq'F (Ne.symm hwq')
            refine hS.obs4 e1 b1 b2 b3 b4 b5 b6 b7 b8 b9 (hq'U.mono fun z hz => ?_)
            rcases e2 with e2 | e2
            · exact .inl (.inr (hangs_of e2 hz))
            · exact .inr (hangs_of e2 hz)
          · have hs3 : [w, q].Sublist l := by
              cases hs2 with
              | cons _ h => exact h
              | cons_cons _ h => exact absurd rfl hwq'
            refine hS.one (a := q') (w := w) (b := q) ?_ hq'U (hnw.toV o.sub) hqU
            exact ((hs3.cons_cons q').trans (List.sublist_append_right d _)).trans hsF
        · exact frame_bad o hends r1 hwl hq'U hnw (rest_of o hg h0 hsub hy (hanc y hyc).1 (hanc y hyc).2 hcy hwc.1 hcw hwc.2)
  · have hcw : AncEq B.par c w := (q1.sub o1 (x := w) (by simp at q3 ⊢; exact .inr q3)).2.2
    have hxV : x ∈ V' := by
      have h1 := F1.last (by simp)
      have h2 : ({ p with base := (x :: T0).reverse, gS := gS, fS := fS, PS := PS } : Past B).base.getLast? = some x := by
        show (x :: T0).reverse.getLast? = some x
        rw [List.getLast?_reverse]; rfl
      rw [h2, q2, List.getLast?_append] at h1
      cases hh : V'.getLast? with
      | none => exact absurd (List.getLast?_eq_none_iff.1 hh) q4
      | some z =>
        rw [hh] at h1
        simp only [Option.some_or, Option.some.injEq] at h1
        exact h1 ▸ List.mem_of_getLast? hh
    have hR := rest_of o hg h0 hsub hx (hanc x hxc).1 (hanc x hxc).2 (q6 x hxV) hwc.1 hcw hwc.2
    obtain ⟨F, hS, hsF⟩ := o1.site q1.live q1.ne q1.below q1.ring
    have hwF : w ∈ F := hsF.subset (List.mem_append_right d q3)
    have hqU : ToU Pl v (Hang p.G0 q) := link_toU (p' := { p with base := (x :: T0).reverse, gS := gS, fS := fS, PS := PS }) e hg hsub rfl q5 hy
    by_cases hwq : w = q
    · subst hwq
      obtain ⟨E', E3, b1, b2, b3, b4, b5, b6, b7, b8, b9, b10, b11, b12, b13⟩ :=
        twin_comps o1 (by exact e) hg h0 dn hsub q5 (Ne.symm hwy) id (fun _ h => h) hn hvw hy hyc.1 hyc.2
      obtain ⟨I, I', e1⟩ := List.append_of_mem hwF
      exact hS.obs4 e1 b1 b2 b3 b4 b5 b6 b7 b8 b9 (hR.mono fun _ hz => .inl (.inl hz))
    · exact frame_bad o1 hends q1 (by simpa [hwq] using q3) hqU hnw hR

end Verif.Embed
