import Verif.Embed.Down

/-
The loop of _WalkDown, its two traversals and its final test.
-/
namespace Verif.Embed
open Verif Verif.Graph Verif.EGraph Equiv Equiv.Perm Verif.Map Function
open Verif.Props (AncEq Anc)

variable {B : Base} {Pl : Plan B} {G : Gh B.D} {s : EGraph} {fw PR : Nat → List Nat} {v : Nat}

theorem Path.ne_nil {I : Nat → Prop} {c0 b W : Nat} {V : List Nat} {fr : List (Nat × Nat)} (h : Path I G PR c0 fr b W V) : V ≠ [] := by
  cases fr with
  | nil => obtain ⟨_, _, P, Q, _, rfl, _⟩ := h; simp
  | cons f fr =>
    obtain ⟨_, _, _, _, ⟨Q, hQ⟩, b', V', rfl, _⟩ := h
    rw [hQ]; simp

theorem St.drop (h : St Pl s G fw PR v) {c : Nat} {Q : List Nat} (hQ : Q.Sublist (G.X c)) (hI : ∀ x ∈ G.X c, x ∉ Q → Quiet Pl G fw v x) :
    St Pl s (G.drop c Q) fw PR v := by
  have r := h.rep
  refine ⟨⟨r.fix, r.links, r.owner, r.typ, r.typ', r.hold, r.foot, r.sign, r.parent, r.zero, r.home⟩, h.good.drop hQ, h.fwl, h.wait.mono fun d x hd => ⟨x, hd⟩,
    h.sub, h.nbr, h.cover, h.prl, h.kids, h.kh, h.low, h.la, h.fp, ?_, ?_, h.rn⟩
  · intro u x hu hx hn
    obtain ⟨a1, a2⟩ := h.act u x hu hx hn
    refine ⟨a1, ?_⟩
    show x ∈ update G.X c Q (G.cp x)
    by_cases hc : G.cp x = c
    · rw [hc, update_self]
      rw [hc] at a2
      by_contra hh
      exact (hI x a2 hh).not_need h.sub hu hn
    · rw [update_of_ne hc]; exact a2
  · intro ha x h1 h2 hl
    have a2 := h.all ha x h1 h2 hl
    show x ∈ update G.X c Q (G.cp x)
    by_cases hc : G.cp x = c
    · rw [hc, update_self]
      rw [hc] at a2
      by_contra hh
      have := (hI x a2 hh).2.2
      rw [ha] at this
      exact absurd this (by decide)
    · rw [update_of_ne hc]; exact a2

/-- Where a traversal ends: before a vertex with edges to before `v`; or there is nothing left for `v` and at most one vertex,
an end, has edges to before `v`. -/
def Kind (Pl : Plan B) (p : Past B) (outer : Bool) (c0 : Nat) (s : EGraph) (G : Gh B.D) (fw PR : Nat → List Nat) (v : Nat) (X : List Nat) : Prop :=
  (∃ x Q K, X = x :: Q ∧ Fr Pl p v c0 s PR K (x :: Q) ∧ PR x = [] ∧ (outer = false → Act Pl G fw v x)) ∨
  ((∀ f ∈ fw v, ¬ AncEq B.par c0 (Pl.nb f)) ∧ ∃ a, (X.head? = some a ∨ X.getLast? = some a) ∧ ∀ z ∈ X, Act Pl G fw v z → z = a)

/-- The end of a traversal. -/
structure Ended (Pl : Plan B) (p : Past B) (side outer : Bool) (c0 : Nat) (s : EGraph) (G : Gh B.D) (fw PR : Nat → List Nat) (v : Nat) : Prop where
  st : St Pl s G fw PR v
  rings : Rings B s G
  dn : Dn Pl s G fw PR v
  live : G.Live B.N c0
  stack : s.p.g.stack = []
  or : G.o (c0 + B.N) = side
  two : 2 ≤ (G.X c0).length
  head : ∀ a, (G.X c0).head? = some a → pe s a = 0
  orig : Orig Pl p v c0
  evo : Evo Pl c0 v p.G0 p.fw p.PR G fw PR
  rim : ∀ k, G.Live B.N k → Rim G k
  run : Evo Pl c0 v p.gS p.fS p.PS G fw PR
  kind : Kind Pl p outer c0 s G fw PR v (G.X c0)
  vis : ∀ x, (s.p.VI x).visitedInfo = p.vis x

theorem evo_drop {c0 : Nat} {Q : List Nat} : Evo Pl c0 v G fw PR (G.drop c0 Q) fw PR := by
  refine ⟨fun _ h => h, fun k _ hk => .inl (update_of_ne hk _ _), fun _ _ => rfl, fun _ h => .inl h, fun _ => List.Sublist.refl _,
    fun _ _ => rfl, fun _ h => h, fun _ h => .inl h⟩

theorem DL.above {p : Past B} {side : Bool} {c0 x : Nat} (h : DL Pl p side c0 s G fw PR v) (hx : x ∈ G.X c0) : (1 ≤ x ∧ x ≤ B.N) ∧ v < x := by
  obtain ⟨x1, x2, x3⟩ := h.st.good.bd c0 h.live x hx
  refine ⟨⟨x1, x2⟩, ?_⟩
  have q1 := h.st.good.anc B.par_lt x x1 x2
  rw [x3] at q1
  have := B.anc_le q1 x1 x2
  have := B.par_lt c0 h.live.1 (h.st.good.root c0 h.live).1
  have := h.par
  omega

theorem DL.no_need {p : Past B} {side : Bool} {c0 x : Nat} (h : DL Pl p side c0 s G fw PR v) (hx : x ∈ G.X c0) (h1 : pe s x = 0) (h2 : PR x = []) :
    ¬ Need Pl G fw v x := fun hn => (h.dn.pert h.arcs (h.above hx).2 hn).elim (fun k => k h1) fun k => k h2

/-- Nothing is left below `c0`. -/
theorem DL.clear {p : Past B} {side : Bool} {c0 : Nat} (h : DL Pl p side c0 s G fw PR v) (hn : ∀ x ∈ G.X c0, ¬ Need Pl G fw v x) :
    ∀ f ∈ fw v, ¬ AncEq B.par c0 (Pl.nb f) := by
  intro f hf ha
  obtain ⟨w, hw, h1, _⟩ := find_need h.st.good h.st.act h.live (by rw [h.par]) hf (Pl.fw_range v f ((h.st.sub v).subset hf)).2.2 ha
  exact hn w hw h1

theorem withExt_st (h : St Pl s G fw PR v) (x : Nat) (b : Bool) (w : Nat) : St Pl (withExt s x b w) G fw PR v :=
  h.congr s.p.g.stack rfl rfl rfl (by constructor <;> intros <;> rfl) (h.prl.congr rfl (fun _ _ _ => rfl) fun _ _ _ => ⟨rfl, rfl⟩) h.fp

theorem DL.two {p : Past B} {side : Bool} {c0 W : Nat} {P Q : List Nat} (h : DL Pl p side c0 s G fw PR v)
    (hX : G.X c0 = P ++ W :: Q) (hpr : PR W = []) : 2 ≤ (G.X c0).length := by
  rcases h.big with hh | ⟨h1, h2⟩
  · exact hh
  · exfalso
    rw [h1] at hX
    have : W ∈ [c0] := by rw [hX]; simp
    simp at this; subst this
    exact h2 hpr

theorem stopAt_spec {p : Past B} {side outer : Bool} {c0 W : Nat} {P Q : List Nat} {K : List (Nat × List Nat × List Nat)}
    (h : DL Pl p side c0 s G fw PR v) (hX : G.X c0 = P ++ W :: Q) (hF : Fr Pl p v c0 s PR K (W :: Q)) (hP : ∀ x ∈ P, Done Pl s G fw v x)
    (hst : s.p.g.stack = []) (hpe : pe s W = 0) (hpr : PR W = []) (hact : outer = false → Act Pl G fw v W)
    : ∃ s', s.stopAt side (c0 + B.N) W (!G.o W) = some s' ∧ ∃ G', Ended Pl p side outer c0 s' G' fw PR v := by
  generalize he : s.stopAt side (c0 + B.N) W (!G.o W) = o
  obtain ⟨hW1, hWN, hWcp⟩ := h.st.good.bd c0 h.live W (by rw [hX]; simp)
  obtain ⟨hcN, hc0, hccp⟩ := h.st.good.root c0 h.live
  have hc1 := h.live.1
  have hring := (h.rings c0 h.live).toRing
  have hRv : c0 + B.N < s.p.g.vSize := by rw [h.st.rep.vSize]; omega
  have hWv : W < s.p.g.vSize := by rw [h.st.rep.vSize]; omega
  have htwo := h.two hX hpr
  -- dropping vertices
  have fin : ∀ (Y : List Nat) (y : Nat) (T : List Nat) (sx : EGraph), Y.Sublist (G.X c0) → (∀ x ∈ G.X c0, x ∉ Y → x ∈ P) → Y = y :: T →
      pe s y = 0 → 2 ≤ Y.length → sx = withExt (withExt s (c0 + B.N) side y) y (!G.o y) (c0 + B.N) →
      List.IsChain (lnk s G.o) (Y ++ [c0 + B.N]) → Kind Pl p outer c0 sx G fw PR v Y → Ended Pl p side outer c0 sx (G.drop c0 Y) fw PR v := by
    intro Y y T sx hY hYP hYy hpy hYl hsx hch hkind
    have hst0 : St Pl sx G fw PR v := by rw [hsx]; exact withExt_st (withExt_st h.st _ _ _) _ _ _
    have hpex : ∀ x, pe sx x = pe s x := by intro x; rw [hsx]; rfl
    have hXd : (G.drop c0 Y).X c0 = Y := update_self _ _ _
    have hy : y ∈ G.X c0 := hY.subset (by rw [hYy]; simp)
    obtain ⟨hy1, hyN, hycp⟩ := h.st.good.bd c0 h.live y hy
    have hext : ∀ x d, sx.ext x d = if x = y ∧ d = !G.o y then c0 + B.N else if x = c0 + B.N ∧ d = side then y else s.ext x d := by
      intro x d; rw [hsx]; rfl
    have hnd : Y.Nodup := hring.nodup.sublist hY
    refine ⟨hst0.drop hY fun x hx hxY => (hP x (hYP x hx hxY)).1, ?_, ?_, h.live, ?_, h.or, ?_, ?_,
      h.orig, h.evo.trans evo_drop h.live, ?_, h.run.trans evo_drop h.live, by rw [hXd]; exact hkind, ?_⟩
    · intro k hk
      have hk' : G.Live B.N k := hk
      by_cases hkc : k = c0
      · subst hkc
        refine ⟨?_, (h.rings k hk').tight.drop hY⟩
        rw [hXd]
        show Ring sx (k + B.N) Y G.o
        refine ⟨?_, by rw [hYy]; simp, hnd, fun hh => hring.root (hY.subset hh), ?_⟩
        · rw [hYy] at hch ⊢
          rw [List.cons_append, List.isChain_cons_cons]
          constructor
          · constructor
            · rw [hext, if_neg (by rintro ⟨hh, _⟩; omega), if_pos ⟨rfl, h.or⟩]
            · rw [hext, if_pos ⟨rfl, rfl⟩]
          · refine isChain_congr' ?_ hch
            intro a ha b hb hl
            have ha' : a ∈ Y := by rw [← List.cons_append, List.dropLast_concat] at ha; rw [hYy]; exact ha
            have hb' : b ∈ T ∨ b = k + B.N := by simpa using hb
            have haR : a ≠ k + B.N := by rintro rfl; exact hring.root (hY.subset ha')
            have hby : b ≠ y := by
              rcases hb' with hb' | rfl
              · rintro rfl
                rw [hYy, List.nodup_cons] at hnd
                exact hnd.1 hb'
              · omega
            constructor
            · rw [hext, if_neg (by rintro ⟨rfl, hh⟩; simp at hh), if_neg (by rintro ⟨hh, _⟩; exact haR hh)]; exact hl.1
            · rw [hext, if_neg (by rintro ⟨hh, _⟩; exact hby hh), if_neg (by rintro ⟨rfl, hh⟩; rw [h.or] at hh; simp at hh)]; exact hl.2
        · intro x hx; rw [hx] at hYl; simp at hYl
      · have hXk : (G.drop c0 Y).X k = G.X k := update_of_ne hkc _ _
        refine ⟨?_, (h.rings k hk').tight.drop hY⟩
        rw [hXk]
        refine (h.rings k hk').toRing.congr ?_ fun _ _ => rfl
        intro z hz d
        have hcz : G.cp z = k := by
          rcases hz with rfl | hz
          · exact (h.st.good.root k hk').2.2
          · exact (h.st.good.bd k hk' z hz).2.2
        rw [hext, if_neg (by rintro ⟨rfl, _⟩; rw [hycp] at hcz; exact hkc hcz.symm),
          if_neg (by rintro ⟨rfl, _⟩; rw [hccp] at hcz; exact hkc hcz.symm)]
    · exact h.dn.congr hpex (fun _ hk => hk) fun z k => ⟨fun hc => ⟨hc, (h.dn.reg z k hc).1⟩, And.left⟩
    · rw [hsx]; exact hst
    · rw [hXd]; exact hYl
    · intro a ha
      rw [hXd, hYy] at ha
      simp at ha
      rw [hpex, ← ha]; exact hpy
    · intro k hk
      refine (h.rim k hk).next (fun _ hx => hx) (.inl ?_)
      by_cases hkc : k = c0
      · subst hkc; rw [hXd]; exact hY
      · rw [show (G.drop c0 Y).X k = G.X k from update_of_ne hkc _ _]
    · intro x; rw [hsx]; exact h.vis x
  have hch := hring.chain
  rw [hX] at hch
  unfold EGraph.stopAt at he
  rw [getExt_eq hRv] at he
  simp only [Option.bind_eq_bind, Option.bind_some] at he
  -- the last vertex
  obtain ⟨T, z, hTz⟩ : ∃ T z, G.X c0 = T ++ [z] := by
    rcases List.eq_nil_or_concat (G.X c0) with hh | ⟨T, z, hh⟩
    · rw [hh] at htwo; simp at htwo
    · exact ⟨T, z, by rw [hh, List.concat_eq_append]⟩
  have hz : s.ext (c0 + B.N) (!side) = z := by
    have hr := hring
    rw [hTz] at hr
    rw [← h.or]; exact hr.last.2
  have hnd := hring.nodup
  by_cases hW : s.ext (c0 + B.N) (!side) = W
  · rw [if_pos hW] at he
    have hQ : Q = [] := by
      rcases List.eq_nil_or_concat Q with hh | ⟨Q', q, hh⟩
      · exact hh
      · exfalso
        rw [List.concat_eq_append] at hh
        have h1 : z = q := by
          have := congrArg List.getLast? (hTz.symm.trans hX)
          rw [hh] at this
          simp [List.getLast?_append, List.getLast?_cons] at this
          exact this
        rw [hX, hh, List.nodup_append] at hnd
        have h2 : W = q := by rw [← h1, ← hz, hW]
        rw [h2] at hnd
        simp at hnd
    subst hQ
    obtain ⟨P', y, hP'⟩ : ∃ P' y, P = P' ++ [y] := by
      rcases List.eq_nil_or_concat P with hh | ⟨P', y, hh⟩
      · rw [hX, hh] at htwo; simp at htwo
      · exact ⟨P', y, by rw [hh, List.concat_eq_append]⟩
    have hXe : G.X c0 = P' ++ y :: W :: [] := by rw [hX, hP']; simp
    have hr := hring
    rw [hXe] at hr
    have hyW := hr.next
    obtain ⟨hy1, hyN, hycp⟩ := h.st.good.bd c0 h.live y (by rw [hXe]; simp)
    have hyv : y < s.p.g.vSize := by rw [h.st.rep.vSize]; omega
    rw [getExt_eq hWv, hyW.2] at he
    simp only [Option.bind_some] at he
    rw [getExt_eq hyv] at he
    simp only [Option.bind_some] at he
    rw [setExt_eq hRv] at he
    simp only [Option.bind_some] at he
    have hyv' : y < (withExt s (c0 + B.N) side y).p.g.vSize := hyv
    rw [setExt_eq hyv'] at he
    have hback : s.ext y (!G.o y) ≠ W := by
      rcases List.eq_nil_or_concat P' with hh | ⟨P'', q, hh⟩
      · subst hh
        rw [Ring.first hr |>.2]; omega
      · rw [List.concat_eq_append] at hh
        subst hh
        have hr2 : Ring s (c0 + B.N) (P'' ++ q :: y :: [W]) G.o := by simpa using hr
        rw [hr2.next.2]
        rintro rfl
        have := hr2.nodup
        rw [List.nodup_append] at this
        simp at this
    have hb : (if s.ext y false = W then true else false) = !G.o y := by
      cases hq : G.o y
      · have h1 := hyW.1; rw [hq] at h1; rw [if_pos h1]; rfl
      · rw [hq] at hback; exact if_neg hback
    rw [hb] at he
    subst he
    refine ⟨_, rfl, _, fin [y, W] y [W] _ ?_ ?_ rfl (hP y (by rw [hP']; simp)).2 (by simp) rfl ?_ (.inr ⟨?_, W, .inr rfl, ?_⟩)⟩
    · rw [hXe]; exact List.sublist_append_right _ _
    · intro x hx hxn
      rw [hX] at hx
      simp at hx hxn
      rcases hx with hx | hx
      · exact hx
      · exact absurd hx hxn.2
    · have e : (c0 + B.N) :: (P ++ [W] ++ [c0 + B.N]) = ((c0 + B.N) :: P') ++ ([y, W] ++ [c0 + B.N]) := by rw [hP']; simp
      rw [e, List.isChain_append] at hch
      exact hch.2.1
    · refine h.clear fun x hx => ?_
      rw [hX] at hx
      simp at hx
      rcases hx with hx | hx
      · exact (hP x hx).1.2.1
      · rw [hx]; exact h.no_need (by rw [hX]; simp) hpe hpr
    · intro x hx hxa
      simp at hx
      rcases hx with rfl | hx
      · exact absurd hxa ((hP x (by rw [hP']; simp)).1.1.not_act h.st.sub)
      · exact hx
  · rw [if_neg hW] at he
    rw [setExt_eq hRv] at he
    simp only [Option.bind_some] at he
    have hWv' : W < (withExt s (c0 + B.N) side W).p.g.vSize := hWv
    rw [setExt_eq hWv'] at he
    subst he
    have hQ : Q ≠ [] := by
      rintro rfl
      apply hW
      rw [hz]
      have := congrArg List.getLast? (hTz.symm.trans hX)
      simp at this; exact this
    refine ⟨_, rfl, _, fin (W :: Q) W Q _ ?_ ?_ rfl hpe ?_ rfl ?_ (.inl ⟨W, Q, K, rfl, ?_, hpr, hact⟩)⟩
    · rw [hX]; exact List.sublist_append_right _ _
    · intro x hx hxn
      rw [hX] at hx
      rcases List.mem_append.1 hx with hx | hx
      · exact hx
      · exact absurd hx hxn
    · cases Q with
      | nil => exact absurd rfl hQ
      | cons q Q => simp
    · have e : (c0 + B.N) :: (P ++ W :: Q ++ [c0 + B.N]) = ((c0 + B.N) :: P) ++ (W :: Q ++ [c0 + B.N]) := by simp
      rw [e, List.isChain_append] at hch
      exact hch.2.1
    · refine hF.mono ?_ fun _ _ hk => hk
      intro x hx; exact hx

theorem passOver_spec {p : Past B} {side outer : Bool} (hap : outer = B.ap) {c0 W : Nat} {P Q : List Nat} {K : List (Nat × List Nat × List Nat)} (h : DL Pl p side c0 s G fw PR v)
    (hX : G.X c0 = P ++ W :: Q) (hF : Fr Pl p v c0 s PR K (W :: Q)) (hP : ∀ x ∈ P, Done Pl s G fw v x) (hst : s.p.g.stack = []) (hpe : pe s W = 0)
    (hpr : PR W = []) {m : Nat} (hm : mu G c0 [] (W :: Q) ≤ m + 1) :
    ∃ s' d, s.passOver outer v side (c0 + B.N) W (!G.o W) = some (s', d) ∧
    ((d = .done ∧ ∃ G', Ended Pl p side outer c0 s' G' fw PR v) ∨
      ∃ W' wP', d = .at W' wP' ∧ DL Pl p side c0 s' G fw PR v ∧ At Pl p s' G fw PR v c0 W' wP' m) := by
  generalize he : s.passOver outer v side (c0 + B.N) W (!G.o W) = o
  obtain ⟨hW1, hWN, hWcp⟩ := h.st.good.bd c0 h.live W (by rw [hX]; simp)
  unfold EGraph.passOver at he
  obtain ⟨s1, hs1, st1, of, hfp, _⟩ := updateFuture_spec ⟨hW1, hWN⟩ h.st
  obtain ⟨f, hf⟩ := futurePertinent_total ⟨hW1, hWN⟩ st1
  rw [hs1] at he
  simp only [Option.bind_eq_bind, Option.bind_some] at he
  rw [hf] at he
  simp only [Option.bind_some] at he
  have hpe1 : ∀ x, pe s1 x = pe s x := of.vk.pe
  have h1 : DL Pl p side c0 s1 G fw PR v := h.same st1 of.ext hpe1 of.vk.vis
  have hst1 : s1.p.g.stack = [] := by rw [of.g]; exact hst
  have hP1 : ∀ x ∈ P, Done Pl s1 G fw v x := fun x hx => ⟨(hP x hx).1, by rw [hpe1]; exact (hP x hx).2⟩
  have hpW : pe s1 W = 0 := by rw [hpe1]; exact hpe
  have hWm : W ∈ G.X c0 := by rw [hX]; simp
  have hF1 : Fr Pl p v c0 s1 PR K (W :: Q) := hF.mono (fun x hx => by rw [hpe1]; exact hx) fun _ _ hk => hk
  by_cases hc : f = true ∨ outer = true
  · rw [if_pos hc] at he
    have hact : outer = false → Act Pl G fw v W := by
      intro ho
      rcases hc with hc | hc
      · rw [hc] at hf
        exact act_of_test h.full ⟨hW1, hWN⟩ (h.above hWm).2 st1 hfp hf
      · rw [ho] at hc; simp at hc
    obtain ⟨s2, hs2, hE⟩ := stopAt_spec h1 hX hF1 hP1 hst1 hpW hpr hact
    rw [hs2] at he
    simp only [Option.bind_some, pure] at he
    subst he
    exact ⟨_, _, rfl, .inl ⟨rfl, hE⟩⟩
  · rw [if_neg hc] at he
    have hff : f = false := by cases f <;> simp_all
    rw [hff] at hf
    have hidle : Quiet Pl G fw v W := ⟨idle_of_test ⟨hW1, hWN⟩ st1 hfp hf, h.no_need hWm hpe hpr, by rw [← hap]; cases outer <;> simp_all⟩
    have hWv : W < s1.p.g.vSize := by rw [st1.rep.vSize]; omega
    rw [getExt_eq hWv, Bool.not_not] at he
    simp only [Option.bind_some] at he
    have hnv : s1.ext W (G.o W) < s1.p.g.vSize := by
      have hr := (h1.rings c0 h.live).toRing
      obtain ⟨r1, _, _⟩ := h.st.good.root c0 h.live
      rw [st1.rep.vSize]
      cases Q with
      | nil => rw [hX] at hr; rw [hr.last.1]; omega
      | cons y Q =>
        obtain ⟨hy1, hyN, hycp⟩ := h.st.good.bd c0 h.live y (by rw [hX]; simp)
        rw [hX] at hr; rw [hr.next.1]; omega
    rw [getExt_eq hnv] at he
    simp only [Option.bind_some, pure] at he
    generalize ha : s1.ext (s1.ext W (G.o W)) false = a at he
    subst he
    refine ⟨_, _, rfl, .inr ⟨_, _, rfl, h1, ?_⟩⟩
    have hr := (h1.rings c0 h.live).toRing
    cases Q with
    | nil =>
      right
      rw [hX] at hr
      refine ⟨hr.last.1, hst1, h.two hX hpr, ?_⟩
      intro x hx
      rw [hX] at hx
      simp at hx
      rcases hx with hx | rfl
      · exact hP1 x hx
      · exact ⟨hidle, hpW⟩
    | cons y Q =>
      left
      rw [hX] at hr
      have hn := hr.next.1
      obtain ⟨hy1, hyN, hycp⟩ := h.st.good.bd c0 h.live y (by rw [hX]; simp)
      have hyv : y < s1.p.g.vSize := by rw [st1.rep.vSize]; omega
      rw [hn] at ha ⊢
      obtain ⟨K', hF2⟩ := hF1.drop
      refine ⟨[], c0, y :: Q, K', by unfold mu at hm ⊢; simp only [List.length_cons] at hm ⊢; omega, ⟨rfl, h.live, P ++ [W], Q, by rw [hX]; simp, rfl, ?_⟩, hF2, hst1, by simp, ?_⟩
      · intro x hx
        rcases List.mem_append.1 hx with hx | hx
        · exact hP1 x hx
        · simp at hx; subst hx; exact ⟨hidle, hpW⟩
      · have := hr.next_back
        rw [← ha, ← this]
        by_cases hq : s1.ext y false = W
        · rw [if_pos hq, decide_eq_true hq]; rfl
        · rw [if_neg hq, decide_eq_false hq]; rfl

theorem downRound_spec {p : Past B} {side outer : Bool} (hap : outer = B.ap) {c0 W : Nat} {wPrev : Bool} (h : DL Pl p side c0 s G fw PR v)
    {m : Nat} (hat : At Pl p s G fw PR v c0 W wPrev (m + 1)) (hW : W ≠ c0 + B.N) :
    ∃ s' d, s.downRound outer v side (c0 + B.N) W wPrev = some (s', d) ∧
    ((d = .blocked ∧ Stuck Pl s' v ∧ (Ends0 Pl p v → B.Bad)) ∨ ∃ G' fw' PR', (d = .done ∧ Ended Pl p side outer c0 s' G' fw' PR' v) ∨
      ∃ W' wP', d = .at W' wP' ∧ DL Pl p side c0 s' G' fw' PR' v ∧ At Pl p s' G' fw' PR' v c0 W' wP' m) := by
  generalize he : s.downRound outer v side (c0 + B.N) W wPrev = o
  rcases hat with ⟨fr, b, V, K, hm, hp, hF, hst, hper, rfl⟩ | ⟨hh, _⟩
  · unfold EGraph.downRound at he
    obtain ⟨s1, hs1, G1, fw1, PR1, fr1, b1, h1, hp1, hst1, hper1, hpe1, ho1, hpk, hPk, hmu1⟩ := downEmbed_spec h hp hst hper
    obtain ⟨hW1, hWN, hWcp, hbW⟩ := hp1.cp h1.st.good
    obtain ⟨r, hr⟩ : ∃ r, s1.p.rdVI W = some r := ⟨_, rdVI_ok (by rw [h1.st.rep.N]; omega)⟩
    rw [hs1] at he
    simp only [Option.bind_eq_bind, Option.bind_some] at he
    rw [hr] at he
    simp only [Option.bind_some] at he
    have hF1 : Fr Pl p v c0 s1 PR1 K V := hF.mono hpk hPk
    have hr' := rdVI_some hr
    rw [← ho1] at he
    by_cases hc : r.pertinentRoots ≠ 0
    · simp only [if_pos hc] at he
      have hmem : (PR1 W).head? = some r.pertinentRoots := by
        have : r.pertinentRoots = pr s1 W := by rw [← hr']; rfl
        rw [this] at hc ⊢
        have h2 := h1.st.prl.head W hW1 hWN
        rw [h2] at hc ⊢
        cases hq : PR1 W with
        | nil => rw [hq] at hc; simp at hc
        | cons a l => rfl
      obtain ⟨s2, d, hd, hh | ⟨W', wP', G', e1, e2, e3⟩⟩ := descend_spec h1 hp1 hF1 hst1 hmem hpe1 (hmu1.trans hm)
      · exact ⟨s2, d, he.symm.trans hd, .inl hh⟩
      · exact ⟨s2, d, he.symm.trans hd, .inr ⟨G', fw1, PR1, .inr ⟨W', wP', e1, e2, e3⟩⟩⟩
    · simp only [if_neg hc] at he
      have hPR : PR1 W = [] := by
        have h0 : pr s1 W = 0 := by
          have : r.pertinentRoots = pr s1 W := by rw [← hr']; rfl
          rw [← this]; omega
        exact (h1.st.prl.zero hW1 hWN).1 h0
      have hfr : fr1 = [] := by
        by_contra hh; exact hper1 hh hPR
      subst hfr
      obtain ⟨_, _, P, Q, hX, rfl, hP⟩ := hp1
      obtain ⟨s2, d, hd, ⟨e1, G', e2⟩ | ⟨W', wP', e1, e2, e3⟩⟩ := passOver_spec hap h1 hX hF1 hP hst1 hpe1 hPR (hmu1.trans hm)
      · exact ⟨s2, d, he.symm.trans hd, .inr ⟨G', fw1, PR1, .inl ⟨e1, e2⟩⟩⟩
      · exact ⟨s2, d, he.symm.trans hd, .inr ⟨G1, fw1, PR1, .inr ⟨W', wP', e1, e2, e3⟩⟩⟩
  · exact absurd hh hW

theorem downLoop_spec {p : Past B} {side outer : Bool} (hap : outer = B.ap) {c0 : Nat} : ∀ (fuel m : Nat) (s : EGraph) (G : Gh B.D) (fw PR : Nat → List Nat)
    (W : Nat) (wPrev : Bool), DL Pl p side c0 s G fw PR v → At Pl p s G fw PR v c0 W wPrev m → m < fuel →
    ∃ s' r, downLoop outer v side (c0 + B.N) fuel s W wPrev = some (s', r) ∧
    ((r = true ∧ ∃ G' fw' PR', Ended Pl p side outer c0 s' G' fw' PR' v) ∨ (r = false ∧ Stuck Pl s' v ∧ (Ends0 Pl p v → B.Bad))) := by
  intro fuel
  induction fuel with
  | zero => intro m s G fw PR W wPrev _ _ hm; omega
  | succ fuel ih =>
    intro m s G fw PR W wPrev h hat hm
    generalize he : downLoop outer v side (c0 + B.N) (fuel + 1) s W wPrev = o
    unfold downLoop at he
    by_cases hW : W = c0 + B.N
    · rw [if_pos hW] at he
      subst he
      rcases hat with ⟨fr, b, V, K, _, hp, _⟩ | ⟨_, hst, h2, hD⟩
      · have := hp.cp h.st.good
        have := h.live.1
        omega
      · refine ⟨_, _, rfl, .inl ⟨rfl, G, fw, PR, h.st, h.rings, h.dn, h.live, hst, h.or, h2, ?_, h.orig, h.evo, h.rim, h.run, .inr ⟨?_, ?_⟩, h.vis⟩⟩
        · intro a ha
          exact (hD a (List.mem_of_mem_head? ha)).2
        · exact h.clear fun x hx => (hD x hx).1.2.1
        · cases hq : G.X c0 with
          | nil => rw [hq] at h2; simp at h2
          | cons a l =>
            refine ⟨a, .inl rfl, fun z hz hza => ?_⟩
            exact absurd hza ((hD z (by rw [hq]; exact hz)).1.1.not_act h.st.sub)
    · rw [if_neg hW] at he
      have hm0 : m ≠ 0 := by
        rintro rfl
        rcases hat with ⟨fr, b, V, K, hm0, hp, _⟩ | ⟨hh, _⟩
        · have := hp.ne_nil
          unfold mu at hm0
          cases V with
          | nil => exact this rfl
          | cons a V => simp at hm0
        · exact hW hh
      obtain ⟨m, rfl⟩ := Nat.exists_eq_succ_of_ne_zero hm0
      obtain ⟨s1, d, hr, hd⟩ := downRound_spec hap h hat hW
      rw [hr] at he
      simp only [Option.bind_eq_bind, Option.bind_some] at he
      rcases hd with ⟨rfl, hbad⟩ | ⟨G', fw', PR', ⟨rfl, hE⟩ | ⟨W', wP', rfl, hD, hA⟩⟩
      · simp only [pure] at he
        subst he
        exact ⟨_, _, rfl, .inr ⟨rfl, hbad⟩⟩
      · simp only [pure] at he
        subst he
        exact ⟨_, _, rfl, .inl ⟨rfl, G', fw', PR', hE⟩⟩
      · subst he
        exact ih m s1 G' fw' PR' W' wP' hD hA (by omega)

end Verif.Embed
