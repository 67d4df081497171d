import Verif.Embed.DownLoop
import Verif.Embed.Final

/-
_WalkDown as a whole.
-/
namespace Verif.Embed
open Verif Verif.Graph Verif.EGraph Equiv Equiv.Perm Verif.Map Function
open Verif.Props (AncEq Anc)

variable {B : Base} {Pl : Plan B} {G : Gh B.D} {s : EGraph} {fw PR : Nat → List Nat} {v : Nat}

theorem downSide_spec {p : Past B} {side outer : Bool} (hap : outer = B.ap) {c0 : Nat} (h : DL Pl p side c0 s G fw PR v) (hst : s.p.g.stack = [])
    (hb : p.base = G.X c0) (hs : side = false ∨ 2 ≤ (G.X c0).length) :
    ∃ s' r, s.downSide outer v side (c0 + B.N) = some (s', r) ∧
    ((r = true ∧ ∃ G' fw' PR', Ended Pl p side outer c0 s' G' fw' PR' v) ∨ (r = false ∧ Stuck Pl s' v ∧ (Ends0 Pl p v → B.Bad))) := by
  generalize he : s.downSide outer v side (c0 + B.N) = o
  obtain ⟨hcN, hc0, hccp⟩ := h.st.good.root c0 h.live
  have hring := (h.rings c0 h.live).toRing
  have hRv : c0 + B.N < s.p.g.vSize := by rw [h.st.rep.vSize]; omega
  unfold EGraph.downSide at he
  rw [getExt_eq hRv] at he
  simp only [Option.bind_eq_bind, Option.bind_some] at he
  obtain ⟨x, T, hxT⟩ : ∃ x T, G.X c0 = x :: T := by
    cases hq : G.X c0 with
    | nil => exact absurd hq hring.ne
    | cons x T => exact ⟨x, T, rfl⟩
  have hr := hring
  rw [hxT] at hr
  have hx : s.ext (c0 + B.N) side = x := by rw [← h.or]; exact hr.first.1
  obtain ⟨hx1, hxN, hxcp⟩ := h.st.good.bd c0 h.live x (by rw [hxT]; simp)
  have hxv : x < s.p.g.vSize := by rw [h.st.rep.vSize]; omega
  rw [hx] at he
  rw [getExt_eq hxv] at he
  simp only [Option.bind_some] at he
  generalize ha : s.ext x true = a at he
  subst he
  refine downLoop_spec hap _ (2 * B.N) _ _ _ _ _ _ h ?_ (by rw [h.st.rep.N]; omega)
  left
  refine ⟨[], c0, x :: T, [], hxT ▸ mu_start h.st.good h.live fun k hk => (h.rings k hk).nodup, ⟨rfl, h.live, [], T, hxT, rfl, by simp⟩, ⟨[], by rw [hb, hxT]; rfl⟩, hst, by simp, ?_⟩
  have := hr.first_back (by
    rcases hs with hs | hs
    · exact .inl (h.or.trans hs)
    · right; rintro rfl; rw [hxT] at hs; simp at hs)
  rw [← this, ← ha]
  by_cases hq : s.ext x true = c0 + B.N
  · rw [if_pos hq, decide_eq_true hq]
  · rw [if_neg hq, decide_eq_false hq]

/-- Subtrees of later children have greater numbers. -/
theorem Plan.before (Pl : Plan B) {c n x : Nat} (hc : B.Child c) (hn : B.Child n) (hp : B.par n = B.par c) (hcn : c < n)
    (hx : AncEq B.par c x) (h2 : x ≤ B.N) : x < n := by
  by_contra hh
  have h3 := Pl.consecutive c n x hc.1 h2 hx (by omega) (by omega)
  have h4 := B.par_lt c hc.1 hc.2.1
  have h5 := hc.2.2
  have h6 := hc.2.1
  rcases h3.cases with h7 | ⟨_, h7⟩
  · omega
  · rw [hp] at h7
    have := B.anc_le h7 (by omega) (by omega)
    omega

theorem downEnd_spec (h : St Pl s G fw PR v) {c0 : Nat} (hc : B.Child c0) (hp : B.par c0 = v) (hlow : ∀ f ∈ fw v, c0 < Pl.nb f)
    (he : s.downEnd v c0 = some true) : ∀ f ∈ fw v, ¬ AncEq B.par c0 (Pl.nb f) := by
  have hcr : 1 ≤ c0 ∧ c0 ≤ B.N ∧ B.par c0 ≠ 0 := hc
  have hvr : 1 ≤ v ∧ v ≤ B.N := by
    have := B.par_lt c0 hc.1 hc.2.1
    rw [hp] at this hcr
    omega
  unfold EGraph.downEnd at he
  obtain ⟨r, hr, he⟩ := Option.bind_eq_some_iff.1 he
  have hr' := rdVI_some hr
  have hhd : r.fwdArcList = (fw v).headD 0 := by rw [← hr']; exact h.fwl.head v hvr.1 hvr.2
  cases hfw : fw v with
  | nil => simp
  | cons e l =>
    rw [hfw] at hhd
    have hhd' : r.fwdArcList = e := hhd
    have hemem : e ∈ fw v := by rw [hfw]; simp
    have hA := h.wait.arc v e hemem
    have he0 : e ≠ 0 := by have := B.rng e hA; omega
    simp only [hhd'] at he
    rw [if_pos he0] at he
    obtain ⟨w, hw, he⟩ := Option.bind_eq_some_iff.1 he
    have hes := (h.rep.arc hA)
    rw [getNbr_eq hes.2, h.nbr v e hemem] at hw
    simp only [Option.some.injEq] at hw
    rw [if_pos (by rw [← hw]; exact hlow e hemem)] at he
    obtain ⟨n, hn, he⟩ := Option.bind_eq_some_iff.1 he
    simp only [pure, Option.some.injEq, Bool.not_eq_true', decide_eq_false_iff_not, not_or, not_lt] at he
    have hkid : c0 ∈ Pl.kid v := (Pl.kid_iff v c0).2 ⟨hc, hp⟩
    obtain ⟨A, T, hAT⟩ := List.append_of_mem hkid
    have hn' : n = T.headD 0 := by
      unfold EGraph.nextChild at hn
      obtain ⟨r2, hr2, hn⟩ := Option.bind_eq_some_iff.1 hn
      rw [← rdVI_some hr2, h.kids, h.kh v hvr.1 hvr.2, Pl.next hvr hAT] at hn
      exact (Option.some.inj hn).symm
    cases T with
    | nil => exact absurd hn' he.1
    | cons n' T =>
      have hnn : n = n' := hn'
      subst hnn
      obtain ⟨hnc, hnp⟩ := (Pl.kid_iff v n).1 (by rw [hAT]; simp)
      have hs := Pl.kid_sorted v
      rw [hAT, List.pairwise_append] at hs
      have hcn : c0 < n := (List.pairwise_cons.1 hs.2.1).1 n (by simp)
      have hsort : (fw v).Pairwise fun f f' => Pl.nb f < Pl.nb f' := (Pl.fw_sorted v).sublist (h.sub v)
      rw [hfw, List.pairwise_cons] at hsort
      intro f hf hanc
      have hf' : f ∈ fw v := by rw [hfw]; exact hf
      have hfr := Pl.fw_range v f ((h.sub v).subset hf')
      have h1 := Pl.before hc hnc (hnp.trans hp.symm) hcn hanc hfr.2.2.2
      rcases List.mem_cons.1 hf with rfl | hf
      · omega
      · have := hsort.1 f hf; omega

/-- The final test has an outcome. -/
theorem downEnd_total (h : St Pl s G fw PR v) {c0 : Nat} (hc : B.Child c0) (hp : B.par c0 = v) : ∃ q, s.downEnd v c0 = some q := by
  have hcr : 1 ≤ c0 ∧ c0 ≤ B.N ∧ B.par c0 ≠ 0 := hc
  have hvr : 1 ≤ v ∧ v ≤ B.N := by
    have := B.par_lt c0 hc.1 hc.2.1
    rw [hp] at this hcr
    omega
  have hrv : s.p.rdVI v = some (s.p.VI v) := rdVI_ok (by rw [h.rep.N]; omega)
  generalize he : s.downEnd v c0 = o
  unfold EGraph.downEnd at he
  rw [hrv] at he
  simp only [Option.bind_eq_bind, Option.bind_some] at he
  by_cases h0 : (s.p.VI v).fwdArcList ≠ 0
  · rw [if_pos h0] at he
    have hhd : (s.p.VI v).fwdArcList = (fw v).headD 0 := h.fwl.head v hvr.1 hvr.2
    have hmem : (s.p.VI v).fwdArcList ∈ fw v := by
      cases hq : fw v with
      | nil => rw [hq] at hhd; exact absurd hhd h0
      | cons a l => rw [hhd, hq]; simp
    rw [getNbr_eq (h.rep.arc (h.wait.arc v _ hmem)).2] at he
    simp only [Option.bind_some] at he
    obtain ⟨A, T, hAT⟩ := List.append_of_mem ((Pl.kid_iff v c0).2 ⟨hc, hp⟩)
    have hn : s.nextChild v c0 = some (T.headD 0) := by
      unfold EGraph.nextChild
      rw [hrv]
      simp only [Option.bind_eq_bind, Option.bind_some]
      rw [h.kids, h.kh v hvr.1 hvr.2, Pl.next hvr hAT]
    rw [hn] at he
    simp only [Option.bind_some] at he
    subst he
    split_ifs <;> exact ⟨_, rfl⟩
  · rw [if_neg h0] at he; subst he; exact ⟨_, rfl⟩

/-- The final test fails only with an edge left below the child. -/
theorem downEnd_false (h : St Pl s G fw PR v) {c0 : Nat} (hc : B.Child c0) (hp : B.par c0 = v)
    (he : s.downEnd v c0 = some false) : ∃ f ∈ fw v, AncEq B.par c0 (Pl.nb f) := by
  have hcr : 1 ≤ c0 ∧ c0 ≤ B.N ∧ B.par c0 ≠ 0 := hc
  have hvr : 1 ≤ v ∧ v ≤ B.N := by
    have := B.par_lt c0 hc.1 hc.2.1
    rw [hp] at this hcr
    omega
  unfold EGraph.downEnd at he
  obtain ⟨r, hr, he⟩ := Option.bind_eq_some_iff.1 he
  have hr' := rdVI_some hr
  have hhd : r.fwdArcList = (fw v).headD 0 := by rw [← hr']; exact h.fwl.head v hvr.1 hvr.2
  cases hfw : fw v with
  | nil =>
    rw [hfw] at hhd
    have : r.fwdArcList = 0 := hhd
    simp [this, pure] at he
  | cons e l =>
    rw [hfw] at hhd
    have hhd' : r.fwdArcList = e := hhd
    have hemem : e ∈ fw v := by rw [hfw]; simp
    have hA := h.wait.arc v e hemem
    have he0 : e ≠ 0 := by have := B.rng e hA; omega
    simp only [hhd'] at he
    rw [if_pos he0] at he
    obtain ⟨w, hw, he⟩ := Option.bind_eq_some_iff.1 he
    have hes := (h.rep.arc hA)
    rw [getNbr_eq hes.2, h.nbr v e hemem] at hw
    simp only [Option.some.injEq] at hw
    have hf0 := (h.sub v).subset hemem
    have hrg := Pl.fw_range v e hf0
    refine ⟨e, by simp, ?_⟩
    by_cases hcw : c0 < w
    · rw [if_pos hcw] at he
      obtain ⟨n, hn, he⟩ := Option.bind_eq_some_iff.1 he
      simp only [pure, Option.some.injEq, Bool.not_eq_false', decide_eq_true_eq] at he
      have hkid : c0 ∈ Pl.kid v := (Pl.kid_iff v c0).2 ⟨hc, hp⟩
      obtain ⟨A, T, hAT⟩ := List.append_of_mem hkid
      have hn' : n = T.headD 0 := by
        unfold EGraph.nextChild at hn
        obtain ⟨r2, hr2, hn⟩ := Option.bind_eq_some_iff.1 hn
        rw [← rdVI_some hr2, h.kids, h.kh v hvr.1 hvr.2, Pl.next hvr hAT] at hn
        exact (Option.some.inj hn).symm
      have hanc := Pl.fw_anc v e hf0
      have hne : v ≠ Pl.nb e := by
        have h1 := up_range B hrg.2.2 hanc.1
        have h2 := B.anc_le hanc.2 h1.1 h1.2
        have h3 := B.par_lt _ hrg.2.2.1 hrg.2.2.2
        omega
      obtain ⟨k, k1, k2, k3⟩ := AncEq.child (.up hanc.1 hanc.2) hne
      have k4 := anc_range B hrg.2.2 k3
      have hk : k ∈ Pl.kid v := (Pl.kid_iff v k).2 ⟨⟨k4.1, k4.2, k2⟩, k1⟩
      have hkw := B.anc_le k3 hrg.2.2.1 hrg.2.2.2
      have hs := Pl.kid_sorted v
      rw [hAT, List.pairwise_append, List.pairwise_cons] at hs
      rw [hAT] at hk
      rcases List.mem_append.1 hk with hk | hk
      · have h1 := hs.2.2 k hk c0 (by simp)
        have := Pl.before ⟨k4.1, k4.2, k2⟩ hc (hp.trans k1.symm) h1 k3 hrg.2.2.2
        omega
      · rcases List.mem_cons.1 hk with rfl | hk
        · exact k3
        · exfalso
          cases T with
          | nil => simp at hk
          | cons n' T =>
            have hnn : n = n' := hn'
            subst hnn
            obtain ⟨hnc, hnp⟩ := (Pl.kid_iff v n).1 (by rw [hAT]; simp)
            have h1 := hnc.1
            have h2 : n ≤ k := by
              rcases List.mem_cons.1 hk with rfl | hk
              · exact le_rfl
              · exact ((List.pairwise_cons.1 hs.2.1.2).1 k hk).le
            omega
    · rw [if_neg hcw] at he; simp [pure] at he

/-- What holds between the walks down of a step. -/
structure Between (Pl : Plan B) (s : EGraph) (G : Gh B.D) (fw PR : Nat → List Nat) (v : Nat) : Prop where
  st : St Pl s G fw PR v
  rings : Rings B s G
  dn : Dn Pl s G fw PR v
  rim : ∀ k, G.Live B.N k → Rim G k
  full : ∀ u, u < v → fw u = Pl.fw0 u
  ord : ∀ z, (PR z).Pairwise fun a b => Pl.low a < v → Pl.low b < v

section
variable {p : Past B} {c0 : Nat} {s1 s2 : EGraph} {G1 G2 : Gh B.D} {fw1 fw2 PR1 PR2 : Nat → List Nat}

/-- The vertex before which the first traversal ended stays as it is. -/
theorem Act.keep {x : Nat} (e : Evo Pl c0 v G1 fw1 PR1 G2 fw2 PR2) (hx : Act Pl G1 fw1 v x) (hP : PR1 x = []) : Act Pl G2 fw2 v x := by
  obtain ⟨u, u1, f, f1, f2⟩ := hx
  refine ⟨u, u1, f, by rw [e.fwu u (by omega)]; exact f1, f2.imp id ?_⟩
  rintro ⟨k, k1, k2, k3⟩
  refine ⟨k, (e.dead k k1).resolve_right ?_, k2, k3⟩
  rintro ⟨_, k4⟩
  rw [k2, hP] at k4
  simp at k4

theorem Act.back {x : Nat} (e : Evo Pl c0 v G1 fw1 PR1 G2 fw2 PR2) (hx : Act Pl G2 fw2 v x) : Act Pl G1 fw1 v x := by
  obtain ⟨u, u1, u2⟩ := hx
  exact ⟨u, u1, u2.mono e.live (e.sub u)⟩

/-- The ends of the component after both traversals. -/
theorem ends_after (h1 : Ended Pl p false false c0 s1 G1 fw1 PR1 v)
    (h2 : Ended Pl { p with base := (G1.X c0).reverse, gS := G1, fS := fw1, PS := PR1 } true false c0 s2 G2 fw2 PR2 v) : EndsOK Pl G2 fw2 v c0 := by
  rcases h2.kind with ⟨y, Q, K, hX, hF, hP, hA⟩ | ⟨_, k2⟩
  · rcases h1.kind with ⟨x, Q0, K0, hX0, hF0, hP0, hA0⟩ | ⟨k1, a, k3, k4⟩
    · left
      have hl := hF.last (by simp)
      rw [← hX] at hl
      simp only [List.getLast?_reverse, hX0, List.head?_cons] at hl
      rintro b (hb | hb)
      · rw [hX] at hb
        simp only [List.head?_cons, Option.some.injEq] at hb
        subst hb; exact hA rfl
      · rw [hl] at hb
        cases hb
        exact Act.keep h2.run (hA0 rfl) hP0
    · right
      cases K with
      | nil =>
        obtain ⟨A, hA'⟩ := hF
        have hin : ∀ z ∈ G2.X c0, z ∈ G1.X c0 := by
          intro z hz
          rw [hX] at hz
          have : z ∈ (G1.X c0).reverse := by
            have e : (G1.X c0).reverse = A ++ y :: Q := hA'
            rw [e]; exact List.mem_append_right _ hz
          simpa using this
        have hy := k4 y (hin y (by rw [hX]; simp)) (Act.back h2.run (hA rfl))
        refine ⟨y, .inl (by rw [hX]; rfl), fun z hz hz' => ?_⟩
        rw [hy]; exact k4 z (hin z hz) (Act.back h2.run hz')
      | cons k K =>
        obtain ⟨c, d, l⟩ := k
        obtain ⟨V', _, _, _, _, he, _⟩ := hF
        obtain ⟨f, f1, _, f3⟩ := he.wit
        exact absurd (he.below.trans f3) (k1 f f1)
  · exact .inr k2

/-- An edge left below the child after both traversals. -/
theorem left_bad {outer : Bool} (hap : outer = B.ap) (hbase : p.base = [c0]) (h1 : Ended Pl p false outer c0 s1 G1 fw1 PR1 v)
    (h2 : Ended Pl { p with base := (G1.X c0).reverse, gS := G1, fS := fw1, PS := PR1 } true outer c0 s2 G2 fw2 PR2 v) {f : Nat} (hf : f ∈ fw2 v)
    (ha : AncEq B.par c0 (Pl.nb f)) (hE : Ends0 Pl p v) : B.Bad := by
  have run := h2.run
  have hA1 : ∀ f ∈ fw1 v, B.A f := fun f hf => Pl.fw_arc v f ((h1.st.sub v).subset hf)
  have hA2 : ∀ f ∈ fw2 v, B.A f := fun f hf => Pl.fw_arc v f ((h2.st.sub v).subset hf)
  rcases h2.kind with ⟨y, Q, K, hX, hF, hP, hA⟩ | ⟨k2, _⟩
  · rcases h1.kind with ⟨x, Q0, K0, hX0, hF0, hP0, hA0⟩ | ⟨k1, _⟩
    · obtain ⟨w, hw, hn, hvw⟩ := find_need h2.st.good h2.st.act h2.live (by rw [h1.orig.par]) hf
        (Pl.fw_range v f ((h2.st.sub v).subset hf)).2.2 ha
      have hX0r : (G1.X c0).reverse = (x :: Q0).reverse := by rw [hX0]
      rw [hX0r] at hF
      have hwr := h2.st.good.bd c0 h2.live w hw
      have hxr := h1.st.good.bd c0 h1.live x (by rw [hX0]; simp)
      have hyr := h2.st.good.bd c0 h2.live y (by rw [hX]; simp)
      have hHx : Hot Pl G2 fw2 v x := by
        cases outer with
        | false => exact .inl (Act.keep run (hA0 rfl) hP0)
        | true => exact .inr ⟨hap.symm, hxr.1, hxr.2.1⟩
      have hHy : Hot Pl G2 fw2 v y := by
        cases outer with
        | false => exact .inl (hA rfl)
        | true => exact .inr ⟨hap.symm, hyr.1, hyr.2.1⟩
      refine final_bad (w := w) h1.orig hbase h2.evo h2.st.good h2.live h2.dn h2.st.sub hE hF0 hF ?_ ?_ hHx hHy
        ?_ ?_ ?_ ?_ hn ?_ ?_
      · intro h0
        by_contra hh
        obtain ⟨q1, q2⟩ := h2.dn.pe w hwr.1 hwr.2.1 hh
        have q3 := h1.dn.all _ (run.fwv _ q1)
        rw [q2, h0] at q3
        exact hh q3.symm
      · intro z k hk; exact (run.pr z).subset hk
      · intro z hz
        rw [← hX0] at hz
        obtain ⟨z1, z2, z3⟩ := h1.st.good.bd c0 h1.live z hz
        refine ⟨⟨z1, z2⟩, ?_⟩
        have := run.cp z
        rw [z3] at this
        exact this h2.live
      · intro z hz
        rw [← hX] at hz
        obtain ⟨z1, z2, z3⟩ := h2.st.good.bd c0 h2.live z hz
        exact ⟨⟨z1, z2⟩, z3⟩
      · have := (h1.rings c0 h1.live).nodup
        rwa [hX0] at this
      · rw [← hX]; exact hw
      · rintro rfl
        have q := hn.mono run.live (run.sub v)
        exact (h1.dn.pert hA1 hvw q).elim (fun k => k (h1.head w (by rw [hX0]; rfl))) fun k => k hP0
      · rintro rfl
        exact (h2.dn.pert hA2 hvw hn).elim (fun k => k (h2.head w (by rw [hX]; rfl))) fun k => k hP
    · exact absurd ha (k1 f (run.fwv f hf))
  · exact absurd ha (k2 f hf)

end

theorem walkDown_spec {outer : Bool} (hap : outer = B.ap) {c0 : Nat} (h : Between Pl s G fw PR v) (hl : G.Live B.N c0) (hp : B.par c0 = v)
    (hX : G.X c0 = [c0]) (hPR : PR c0 ≠ []) (hlow : ∀ f ∈ fw v, c0 < Pl.nb f) :
    ∃ s' r, s.walkDown outer v (c0 + B.N) = some (s', r) ∧
    ((r = true ∧ ∃ G' fw' PR', Between Pl s' G' fw' PR' v ∧ Evo Pl c0 v G fw PR G' fw' PR' ∧ G'.Live B.N c0 ∧
      (∀ x, (s'.p.VI x).visitedInfo = (s.p.VI x).visitedInfo) ∧ (∀ f ∈ fw' v, ¬ AncEq B.par c0 (Pl.nb f)) ∧
      (outer = false → EndsOK Pl G' fw' v c0)) ∨
    (r = false ∧ Given Pl s' v ∧ (outer = B.ap → (outer = false → ∀ k, G.Live B.N k → v < B.par k → EndsOK Pl G fw (v + 1) k) → B.Bad))) := by
  generalize he : s.walkDown outer v (c0 + B.N) = out
  obtain ⟨hcN, hc0, hccp⟩ := h.st.good.root c0 hl
  have hc1 := hl.1
  have hpec0 : pe s c0 = 0 := by
    by_contra hh
    obtain ⟨h1, h2⟩ := h.dn.pe c0 hc1 hcN hh
    have := Pl.fw_far v _ ((h.st.sub v).subset h1)
    rw [h2] at this
    exact this hp
  obtain ⟨p, hpd⟩ : ∃ p : Past B, p = ⟨G, fw, PR, fun x => (s.p.VI x).visitedInfo, [c0], G, fw, PR⟩ := ⟨_, rfl⟩
  have hbase : p.base = [c0] := by rw [hpd]
  have o : Orig Pl p v c0 := by rw [hpd]; exact ⟨h.st.good, hl, hp, h.st.sub, h.st.act, h.rim, h.full, h.ord⟩
  -- a state ready for the first traversal
  have start : ∃ G0, DL Pl p false c0 (s.setG s.p.g.clearStack) G0 fw PR v ∧ G0.X c0 = [c0] := by
    have st0 : St Pl (s.setG s.p.g.clearStack) G fw PR v := h.st.stack []
    have dn0 : Dn Pl (s.setG s.p.g.clearStack) G fw PR v := h.dn.same fun _ => rfl
    have rg0 : Rings B (s.setG s.p.g.clearStack) G := h.rings.congr rfl
    have hpe : ∀ a, ([c0] : List Nat).getLast? = some a → pe (s.setG s.p.g.clearStack) a = 0 := by
      intro a ha; simp at ha; subst ha; exact hpec0
    by_cases ho : G.o (c0 + B.N) = false
    · refine ⟨G, ⟨st0, rg0, dn0, hl, hp, ho, by rw [hX]; exact hpe, .inr ⟨hX, hPR⟩, o, ?_, h.rim, ?_, ?_⟩, hX⟩
      · rw [hpd]; exact Evo.refl _ _ _
      · rw [hpd]; exact Evo.refl _ _ _
      · rw [hpd]; exact fun _ => rfl
    · have hX' : (G.reflect c0).X c0 = [c0] := by rw [reflect_X', hX]; rfl
      refine ⟨G.reflect c0, ⟨st0.reflect hl, rg0.reflect h.st.good hl, dn0.reflect c0, reflect_live.2 hl, hp, ?_, by rw [hX']; exact hpe,
        .inr ⟨hX', hPR⟩, o, ?_, ?_, ?_, ?_⟩, hX'⟩
      · rw [reflect_o' hccp]
        simp at ho; simp [ho]
      · rw [hpd]; exact evo_reflect
      · intro k hk
        refine (h.rim k (reflect_live.1 hk)).next (fun _ hx => hx) ?_
        by_cases hkc : k = c0
        · subst hkc; rw [reflect_X']; exact .inr (List.Sublist.refl _)
        · rw [reflect_X hkc]; exact .inl (List.Sublist.refl _)
      · rw [hpd]; exact evo_reflect
      · rw [hpd]; exact fun _ => rfl
  obtain ⟨G0, hD0, hX0⟩ := start
  have hE0 : outer = B.ap → (outer = false → ∀ k, G.Live B.N k → v < B.par k → EndsOK Pl G fw (v + 1) k) → Ends0 Pl p v := by
    rw [hpd]; exact fun ho hh hap => hh (ho.trans hap)
  unfold EGraph.walkDown at he
  have hch : s.childOf (c0 + B.N) = some c0 := by
    unfold EGraph.childOf; rw [h.st.rep.N, if_pos (by omega)]; simp
  rw [hch] at he
  simp only [Option.bind_eq_bind, Option.bind_some] at he
  obtain ⟨s1, r1, hs1, hd1⟩ := downSide_spec hap hD0 rfl (by rw [hbase, hX0]) (.inl rfl)
  rw [hs1] at he
  simp only [Option.bind_some] at he
  rcases hd1 with ⟨rfl, G1, fw1, PR1, hE⟩ | ⟨rfl, hstk, hbad⟩
  · simp only [Bool.not_true, Bool.false_eq_true, if_false] at he
    have hXr : (G1.reflect c0).X c0 = (G1.X c0).reverse := reflect_X'
    have hcr := hE.st.good.root c0 hE.live
    have hD1 : DL Pl { p with base := (G1.X c0).reverse, gS := G1, fS := fw1, PS := PR1 } true c0 s1 (G1.reflect c0) fw1 PR1 v := by
      refine ⟨hE.st.reflect hE.live, hE.rings.reflect hE.st.good hE.live, hE.dn.reflect c0, reflect_live.2 hE.live, hp, ?_, ?_, ?_,
        ⟨o.good, o.live, o.par, o.sub, o.act, o.rim, o.full, o.ord⟩, hE.evo.trans evo_reflect (reflect_live.2 hE.live), ?_, evo_reflect, hE.vis⟩
      · rw [reflect_o' hcr.2.2, hE.or]; rfl
      · intro a ha
        rw [hXr, List.getLast?_reverse] at ha
        exact hE.head a ha
      · left; rw [hXr, List.length_reverse]; exact hE.two
      · intro k hk
        refine (hE.rim k (reflect_live.1 hk)).next (fun _ hx => hx) ?_
        by_cases hkc : k = c0
        · subst hkc; rw [reflect_X']; exact .inr (List.Sublist.refl _)
        · rw [reflect_X hkc]; exact .inl (List.Sublist.refl _)
    obtain ⟨s2, r2, hs2, hd2⟩ := downSide_spec hap hD1 hE.stack hXr.symm (.inr (by rw [hXr, List.length_reverse]; exact hE.two))
    rw [hs2] at he
    simp only [Option.bind_some] at he
    rcases hd2 with ⟨rfl, G2, fw2, PR2, hE2⟩ | ⟨rfl, hstk, hbad⟩
    · simp only [Bool.not_true, Bool.false_eq_true, if_false] at he
      obtain ⟨q, hq⟩ := downEnd_total hE2.st ⟨hc1, hcN, hc0⟩ hp
      rw [hq] at he
      simp only [pure, Option.bind_some] at he
      subst he
      refine ⟨_, _, rfl, ?_⟩
      have hevo : Evo Pl c0 v G fw PR G2 fw2 PR2 := by have := hE2.evo; simp only [hpd] at this; exact this
      have hvis : ∀ x, (s2.p.VI x).visitedInfo = (s.p.VI x).visitedInfo := by have := hE2.vis; simp only [hpd] at this; exact this
      cases q
      · right
        refine ⟨rfl, Stuck.given ⟨.inl hE2.stack, G2, fw2, PR2, hE2.st, hE2.rings, hE2.dn⟩ hc1, ?_⟩
        intro ho hh
        obtain ⟨f, f1, f2⟩ := downEnd_false hE2.st ⟨hc1, hcN, hc0⟩ hp hq
        exact left_bad ho hbase hE hE2 f1 f2 (hE0 ho hh)
      · left
        refine ⟨rfl, G2, fw2, PR2, ⟨hE2.st, hE2.rings, hE2.dn, hE2.rim, ?_, ?_⟩, hevo, hE2.live, hvis, ?_, ?_⟩
        · intro u hu; rw [hevo.fwu u (by omega), h.full u hu]
        · intro z; exact (h.ord z).sublist (hevo.pr z)
        · exact downEnd_spec hE2.st ⟨hc1, hcN, hc0⟩ hp (fun f hf => hlow f (hevo.fwv f hf)) hq
        · rintro rfl
          exact ends_after hE hE2
    · simp only [Bool.not_false, if_true, pure] at he
      subst he
      exact ⟨_, _, rfl, .inr ⟨rfl, hstk.given hc1, fun ho hh => hbad (hE0 ho hh)⟩⟩
  · simp only [Bool.not_false, if_true, pure] at he
    subst he
    exact ⟨_, _, rfl, .inr ⟨rfl, hstk.given hc1, fun ho hh => hbad (hE0 ho hh)⟩⟩

end Verif.Embed
