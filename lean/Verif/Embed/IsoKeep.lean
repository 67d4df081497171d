import Verif.Embed.IsoPlot
import Verif.Embed.IsoDelete

/-
Joining, adding the unembedded edge, putting back the others, and deleting the edges that are not marked.
-/
namespace Verif.Isolate
open Verif Verif.Embed Verif.Graph Verif.EGraph Verif.Random Verif.Test Verif.DFS Function
open Verif.Props (AncEq Anc)

variable {A : Nat → Prop} {B : Base} {s s' : EGraph} {L fw : Nat → List Nat} {v : Nat} {t : Nat → Nat} {M M' : Nat → Prop} {g g' g0 : Graph}

/-- The flags of all arcs stay as they are. -/
def KF (g g' : Graph) : Prop := ∀ e, (g'.E e).flags = (g.E e).flags

theorem KF.refl (g : Graph) : KF g g := fun _ => rfl
theorem KF.trans {a b c : Graph} (h : KF a b) (h' : KF b c) : KF a c := fun e => (h' e).trans (h e)

theorem wrE_kf {e : Nat} {r : ERec} (h : r.flags = (g.E e).flags) : Ens (g.wrE e r) (KF g) := by
  unfold wrE
  refine Ens.ite (fun _ => Ens.some fun x => ?_) fun _ => Ens.none
  show (update g.E e r x).flags = _
  by_cases hx : x = e
  · subst hx; rw [update_self]; exact h
  · rw [update_of_ne hx]
theorem wrV_kf (v : Nat) (r : VRec) : Ens (g.wrV v r) (KF g) := (wrV_sameE v r).mono fun _ h e => by rw [h]
theorem setAdj_kf (e : Nat) (b : Bool) (x : Nat) : Ens (g.setAdj e b x) (KF g) := by
  unfold setAdj
  exact Ens.bind (rdE_val e) fun r hr => wrE_kf (by rw [hr]; cases b <;> rfl)
theorem setNbr_kf (e x : Nat) : Ens (g.setNbr e x) (KF g) := by
  unfold setNbr
  exact Ens.bind (rdE_val e) fun r hr => wrE_kf (by rw [hr])
theorem setArc_kf (v : Nat) (b : Bool) (x : Nat) : Ens (g.setArc v b x) (KF g) := by
  unfold setArc
  exact Ens.skip fun r _ => wrV_kf _ _

theorem retargetLoop_kf : ∀ (fuel : Nat) (g : Graph) (u e : Nat), Ens (Graph.retargetLoop fuel g u e) (KF g)
  | 0, g, u, e => by unfold Graph.retargetLoop; exact Ens.ite (fun _ => Ens.some (.refl _)) fun _ => Ens.none
  | fuel + 1, g, u, e => by
    unfold Graph.retargetLoop
    exact Ens.ite (fun _ => Ens.some (.refl _)) fun _ => Ens.bind (setNbr_kf _ _) fun g1 h1 => Ens.skip fun n _ => (retargetLoop_kf fuel g1 u n).mono fun _ h => h1.trans h

theorem mergeVertex_kf (W : Nat) (b : Bool) (R : Nat) : Ens (mergeVertex g W b R) (KF g) := by
  unfold mergeVertex
  refine Ens.skip fun a _ => Ens.bind (retargetLoop_kf _ g W a) fun g1 h1 => Ens.skip fun ew _ => Ens.skip fun er _ => Ens.skip fun ex _ => ?_
  refine Ens.ite (fun _ => Ens.bind (P := KF g1) ?_ fun g2 h2 => (wrV_kf _ _).mono fun _ h => h1.trans (h2.trans h))
    fun _ => Ens.bind (P := KF g1) ?_ fun g2 h2 => (wrV_kf _ _).mono fun _ h => h1.trans (h2.trans h)
  · unfold unionLists
    exact Ens.bind (setAdj_kf _ _ _) fun _ a => Ens.bind (setAdj_kf _ _ _) fun _ b => Ens.bind (setArc_kf _ _ _) fun _ c => (setAdj_kf _ _ _).mono fun _ d =>
      a.trans (b.trans (c.trans d))
  · unfold moveList
    exact Ens.bind (setArc_kf _ _ _) fun _ a => Ens.bind (setAdj_kf _ _ _) fun _ b => Ens.bind (setArc_kf _ _ _) fun _ c => (setAdj_kf _ _ _).mono fun _ d =>
      a.trans (b.trans (c.trans d))

theorem joinBicomps_kf : Ens s.joinBicomps fun s' => KF s.p.g s'.p.g := by
  unfold joinBicomps
  refine Ens.fold (R := fun s' : EGraph => KF s.p.g s'.p.g) _ (.refl _) fun s1 i h => ?_
  unfold joinOne
  refine Ens.skip fun a _ => Ens.ite (fun _ => Ens.skip fun z _ => Ens.bind (mergeVertex_kf _ _ _) fun g hg => Ens.pure (h.trans hg)) fun _ => Ens.some h

theorem putFirst_kf (v e : Nat) : Ens (putFirst g v e) (KF g) := by
  unfold putFirst
  exact Ens.bind (setAdj_kf _ _ _) fun _ a => Ens.skip fun _ _ => Ens.bind (setAdj_kf _ _ _) fun _ b => Ens.skip fun _ _ => Ens.bind (setAdj_kf _ _ _) fun _ c =>
    (setArc_kf _ _ _).mono fun _ d => a.trans (b.trans (c.trans d))

theorem wrVI_g {p : PGraph} (x : Nat) (r : VInfo) : Ens (p.wrVI x r) fun q => q.g = p.g := by
  unfold PGraph.wrVI
  exact Ens.ite (fun _ => Ens.some rfl) fun _ => Ens.none

theorem takeFwd_kf {p : PGraph} (v f : Nat) : Ens (takeFwd p v f) fun q => KF p.g q.g := by
  unfold takeFwd
  refine Ens.skip fun r _ => Ens.skip fun n _ => ?_
  have hj : ∀ q : PGraph, q.g = p.g → Ens (q.g.getAdj f true >>= fun a => q.g.getAdj f false >>= fun n => q.g.setAdj a false n >>= fun g => g.getAdj f false >>= fun n =>
      g.getAdj f true >>= fun a => g.setAdj n true a >>= fun g => Pure.pure (q.setG g)) fun q => KF p.g q.g := by
    intro q hq
    refine Ens.skip fun _ _ => Ens.skip fun _ _ => Ens.bind (setAdj_kf _ _ _) fun _ a => Ens.skip fun _ _ => Ens.skip fun _ _ => Ens.bind (setAdj_kf _ _ _) fun _ b => Ens.pure ?_
    rw [← hq]; exact a.trans b
  exact Ens.ite (fun _ => Ens.bind (wrVI_g _ _) fun q hq => hj q hq) fun _ => Ens.bind (P := fun q => q = p) (Ens.some rfl) fun q hq => hj q (by rw [hq])

theorem addBackEdge_kf (anc desc : Nat) : Ens (s.addBackEdge anc desc) fun s' => KF s.p.g s'.p.g := by
  unfold addBackEdge
  refine Ens.skip fun r _ => Ens.skip fun f _ => Ens.ite (fun _ => Ens.pure (.refl _)) fun _ => ?_
  exact Ens.bind (takeFwd_kf _ _) fun p a => Ens.bind (putFirst_kf _ _) fun g1 b => Ens.bind (putFirst_kf _ _) fun g2 c => Ens.bind (setNbr_kf _ _) fun g3 d =>
    Ens.pure (a.trans (b.trans (c.trans d)))

theorem putBack_kf (v : Nat) : ∀ (fuel : Nat) (s : EGraph), Ens (putBack v fuel s) fun s' => KF s.p.g s'.p.g
  | 0, s => by
    unfold putBack
    exact Ens.skip fun r _ => Ens.ite (fun _ => Ens.pure (.refl _)) fun _ => Ens.none
  | fuel + 1, s => by
    unfold putBack
    refine Ens.skip fun r _ => Ens.ite (fun _ => Ens.pure (.refl _)) fun _ => Ens.skip fun w _ => Ens.bind (addBackEdge_kf _ _) fun s1 h1 => ?_
    exact (putBack_kf v fuel s1).mono fun _ h => h1.trans h

theorem putAll_kf : Ens ((List.range s.p.g.N).foldlM (fun s i => putBack (i + 1) s.p.g.eSize s) s) fun s' => KF s.p.g s'.p.g :=
  Ens.fold (R := fun s' : EGraph => KF s.p.g s'.p.g) _ (.refl _) fun s1 _ h => (putBack_kf _ _ s1).mono fun _ h' => h.trans h'

/-- The search finds an edge if there is one. -/
theorem findFwd_found (P : Part B s L fw) {anc desc : Nat} (h1 : 1 ≤ anc) (h2 : anc ≤ B.N) : ∀ (fuel : Nat) (Z T : List Nat) (e : Nat), fw anc = Z ++ e :: T →
    (∀ f ∈ Z, B.own (twin f) ≠ desc) → (∃ f ∈ fw anc, B.own (twin f) = desc) → Ens (findFwd s.p anc desc fuel e) fun f => f ≠ 0
  | 0, Z, T, e, he, _, _ => by
    unfold findFwd
    have := (P.fwl.bound anc e (by rw [he]; simp)).1
    exact Ens.ite (fun h => by omega) fun _ => Ens.none
  | fuel + 1, Z, T, e, he, hZ, hex => by
    have hem : e ∈ fw anc := by rw [he]; simp
    have h0 := (P.fwl.bound anc e hem).1
    unfold findFwd
    refine Ens.ite (fun h => by omega) fun _ => Ens.bind (getNbr_val e) fun w hw => Ens.ite (fun _ => Ens.pure (by omega)) fun hwd => ?_
    have hnd : B.own (twin e) ≠ desc := by rw [← P.nbr anc e hem, ← hw]; exact hwd
    refine Ens.bind (getAdj_val e false) fun n hn => Ens.bind (rdVI_val anc) fun r hr => ?_
    have hhd : r.fwdArcList = (fw anc).headD 0 := by rw [hr.2]; exact P.fwl.head anc h1 h2
    have hring := P.fwl.ring anc
    cases hL : fw anc with
    | nil => rw [hL] at hem; cases hem
    | cons a l =>
      rw [hL, LC.ring_iff] at hring
      have hc : a :: (l ++ [a]) = Z ++ e :: (T ++ [a]) := by rw [← List.cons_append, ← hL, he]; simp
      rw [hc, List.isChain_append] at hring
      have hnr : n = (arcs s.p.g).next e := hn
      have hra : r.fwdArcList = a := by rw [hhd, hL]; rfl
      cases T with
      | nil =>
        exfalso
        obtain ⟨f, hf, hfd⟩ := hex
        rw [he] at hf
        rcases List.mem_append.1 hf with hf | hf
        · exact hZ f hf hfd
        · rw [List.mem_singleton] at hf; rw [hf] at hfd; exact hnd hfd
      | cons b T =>
        have hnb : n = b := hnr.trans (List.isChain_cons_cons.1 hring.2.1).1.1
        have hba : b ≠ a := by
          have hd := P.fwl.nodup anc
          rintro rfl
          rw [he] at hd hL
          cases Z with
          | nil =>
            have : e = b := by have := congrArg List.head? hL; simpa using this
            rw [this] at hd; simp at hd
          | cons z Z =>
            have : z = b := by have := congrArg List.head? hL; simpa using this
            rw [this] at hd; simp at hd
        rw [hnb, hra, if_neg hba]
        refine findFwd_found P h1 h2 fuel (Z ++ [e]) T b (by rw [he]; simp) ?_ hex
        intro f hf
        rcases List.mem_append.1 hf with hf | hf
        · exact hZ f hf
        · rw [List.mem_singleton] at hf; rw [hf]; exact hnd

theorem setAdj_V (e : Nat) (b : Bool) (x : Nat) : Ens (g.setAdj e b x) fun g' => g'.V = g.V := by
  unfold setAdj wrE
  exact Ens.skip fun r _ => Ens.ite (fun _ => Ens.some rfl) fun _ => Ens.none

theorem putFirst_first (v e : Nat) : Ens (putFirst g v e) fun g' => (g'.V v).link false = e ∧ ∀ w, w ≠ v → g'.V w = g.V w := by
  unfold putFirst
  refine Ens.bind (setAdj_V _ _ _) fun g1 a => Ens.skip fun _ _ => Ens.bind (setAdj_V _ _ _) fun g2 b => Ens.skip fun _ _ => Ens.bind (setAdj_V _ _ _) fun g3 c => ?_
  unfold setArc
  refine Ens.skip fun r _ => ?_
  unfold wrV
  refine Ens.ite (fun _ => Ens.some ⟨?_, fun w hw => ?_⟩) fun _ => Ens.none
  · show (update g3.V v _ v).link false = e
    rw [update_self]; rfl
  · show update g3.V v _ w = _
    rw [update_of_ne hw, c, b, a]

/-- The new edge is first in the lists of its ends. -/
theorem addBackEdge_first (hB : NoLoop B) (P : Part B s L fw) {anc desc : Nat} (h1 : 1 ≤ anc) (h2 : anc ≤ B.N) (hex : ∃ f ∈ fw anc, B.own (twin f) = desc) :
    Ens (s.addBackEdge anc desc) fun s' => ∃ f ∈ fw anc, B.own (twin f) = desc ∧ (s'.p.g.V anc).link false = f ∧ (s'.p.g.V desc).link false = twin f := by
  unfold addBackEdge
  refine Ens.bind (rdVI_val anc) fun r hr => ?_
  rw [hr.2]
  have hF : Ens (findFwd s.p anc desc s.p.g.eSize (s.p.VI anc).fwdArcList) fun f => f ≠ 0 ∧ f ∈ fw anc ∧ B.own (twin f) = desc := by
    have hh : (s.p.VI anc).fwdArcList = (fw anc).headD 0 := P.fwl.head anc h1 h2
    cases hL : fw anc with
    | nil => obtain ⟨f, hf, _⟩ := hex; rw [hL] at hf; cases hf
    | cons a l =>
      rw [hL] at hh
      have hh : (s.p.VI anc).fwdArcList = a := hh
      rw [hh]
      refine ((findFwd_found P h1 h2 _ [] l a hL (by simp) hex).and (findFwd_spec P (anc := anc) _ a (.inr (by rw [hL]; simp)))).mono fun f ⟨h, h'⟩ => ⟨h, ?_⟩
      rw [← hL]; exact h'.resolve_left h
  refine Ens.bind hF fun f ⟨h0, hf, hd⟩ => Ens.ite (fun h => absurd h h0) fun _ => Ens.skip fun p _ => ?_
  have hne : anc ≠ desc := by
    have := hB f (P.arc anc f hf)
    rw [P.own anc f hf, hd] at this; exact this
  refine Ens.bind (putFirst_first _ _) fun g1 a => Ens.bind (putFirst_first _ _) fun g2 b => ?_
  have hn : Ens (g2.setNbr (twin f) anc) fun g => g.V = g2.V := by
    unfold setNbr wrE
    exact Ens.skip fun r _ => Ens.ite (fun _ => Ens.some rfl) fun _ => Ens.none
  refine Ens.bind hn fun g3 c => Ens.pure ⟨f, hf, hd, ?_, ?_⟩
  · show (g3.V anc).link false = f
    rw [c, b.2 anc hne]; exact a.1
  · show (g3.V desc).link false = twin f
    rw [c]; exact b.1

theorem setVisited_link (v : Nat) : Ens (g.setVisited v) fun g' => ∀ w b, (g'.V w).link b = (g.V w).link b := by
  refine (setVisited_fr (A := fun _ => True) v).mono fun g' h w b => strip_vlink h.strip w b

theorem addMarkEdge_tag (hB : NoLoop B) (P : Part B s L fw) (hT : Tag B.A t M s.p.g) {anc desc : Nat} (h1 : 1 ≤ anc) (h2 : anc ≤ B.N)
    (hex : ∃ f ∈ fw anc, B.own (twin f) = desc) :
    Ok (s.addMarkEdge anc desc) fun s' => ∃ f ∈ fw anc, B.own (twin f) = desc ∧ Tag B.A t (fun e => M e ∨ e = f ∨ e = twin f) s'.p.g := by
  unfold EGraph.addMarkEdge
  refine Ok.bind ((addBackEdge_first hB P h1 h2 hex).and (addBackEdge_kf anc desc)) fun s1 ⟨⟨f, hf, hd, e1, e2⟩, k1⟩ => ?_
  have T1 : Tag B.A t M s1.p.g := hT.flags fun e _ => k1 e
  refine Ok.bind ((setVisited_link anc).and (setVisited_sameE anc)) fun g2 ⟨l2, E2⟩ => Ok.bind (getArc_val anc false) fun a ha => ?_
  have ha : a = f := by rw [ha.2, l2, e1]
  subst ha
  have T2 := T1.congr E2
  have hV : Ens (setEdgeVisited g2 a) fun g' => g'.V = g2.V := by
    unfold setEdgeVisited wrE
    exact Ens.skip fun r _ => Ens.ite (fun _ => Ens.some rfl) fun _ => Ens.none
  refine Ok.bind ((setEdgeVisited_tag T2 a).and hV) fun g3 ⟨T3, V3⟩ => Ok.bind (getArc_val desc false) fun b hb => ?_
  have hb : b = twin a := by rw [hb.2, V3, l2, e2]
  subst hb
  refine Ok.bind (setEdgeVisited_tag T3 (twin a)) fun g4 T4 => Ok.bind (setVisited_sameE desc) fun g5 E5 => Ok.ret ⟨a, hf, hd, ?_⟩
  exact (T4.congr E5).mono fun e _ => by tauto

theorem edgeVisited_eq (e : Nat) : Ens (edgeVisited g e) fun m => (m = true ↔ (g.E e).flags &&& 1 ≠ 0) := by
  unfold edgeVisited
  refine Ens.bind (rdE_val e) fun r hr => Ens.pure ?_
  rw [hr]; simp

/-- Only edges that are not marked have been deleted. -/
structure Kp (M : Nat → Prop) (g0 : Graph) (L : Nat → List Nat) (g : Graph) (L' : Nat → List Nat) : Prop where
  cut : Cut g0 L g L'
  flags : ∀ x e, e ∈ L' x → (g.E e).flags = (g0.E e).flags
  keep : ∀ x e, e ∈ L x → M e → e ∈ L' x

theorem deleteLoop_kept (ha : ∀ x e, e ∈ L x → twin e ∉ L x) (hm : ∀ x e, e ∈ L x → ((g0.E e).flags &&& 1 ≠ 0 ↔ M e)) (ht : ∀ e, M (twin e) → M e) {v : Nat} :
    ∀ (fuel : Nat) (T P : List Nat) (g : Graph) (L' : Nat → List Nat), Kp M g0 L g L' → L' v = P ++ T → (∀ p ∈ P, M p) →
      Ens (deleteLoop fuel g (T.headD 0)) fun g' => ∃ L'', Kp M g0 L g' L'' ∧ (∀ x, (L'' x).Sublist (L' x)) ∧ ∀ e ∈ L'' v, M e
  | fuel, [], P, g, L', h, hl, hP => by
    have : deleteLoop fuel g (([] : List Nat).headD 0) = some g := by cases fuel <;> simp [deleteLoop]
    rw [this]
    refine Ens.some ⟨L', h, fun _ => .refl _, fun e he => ?_⟩
    rw [hl, List.append_nil] at he; exact hP e he
  | 0, e :: T, P, g, L', h, hl, hP => by
    have he : e ∈ L' v := by rw [hl]; simp
    have h0 := (h.cut.inv.links.arc v e he).1
    unfold deleteLoop
    exact Ens.ite (fun hh => by have : e = 0 := hh; omega) fun _ => Ens.none
  | fuel + 1, e :: T, P, g, L', h, hl, hP => by
    have he : e ∈ L' v := by rw [hl]; simp
    have h0 := (h.cut.inv.links.arc v e he).1
    have heL := (h.cut.sub v).subset he
    have hnd := h.cut.inv.links.nodup v
    show Ens (deleteLoop (fuel + 1) g e) _
    have hnx : nextIn (L' v) e = T.headD 0 := by
      rw [hl] at hnd ⊢
      rw [nextIn_append_right, nextIn_cons_self]
      intro hh
      exact (List.nodup_append.1 hnd).2.2 e hh e List.mem_cons_self rfl
    unfold deleteLoop
    refine Ens.ite (fun hh => by omega) fun _ => Ens.bind (edgeVisited_eq e) fun m hmv => ?_
    rw [h.flags v e he, hm v e heL] at hmv
    refine Ens.ite (fun hh => ?_) fun hh => ?_
    · refine Ens.bind (getAdj_val e false) fun n hn => ?_
      rw [h.cut.inv.links.elink v false e he] at hn
      have hn : n = T.headD 0 := hn.trans hnx
      subst hn
      refine deleteLoop_kept ha hm ht fuel T (P ++ [e]) g L' h (by rw [hl]; simp) fun p hp => ?_
      rcases List.mem_append.1 hp with hp | hp
      · exact hP p hp
      · rw [List.mem_singleton] at hp; rw [hp]; exact hmv.1 hh
    · have hne : ¬ M e := fun hM => hh (hmv.2 hM)
      have hne' : ¬ M (twin e) := fun hM => hne (ht e hM)
      obtain ⟨g', h1, h2, h3, h4, h5, h6, -, h8, -, -, h9, h10, -⟩ := deleteEdge_spec h.cut.inv he 0 false rfl
      rw [h1]
      have hd : nextIn (dir false (L' v)) e = T.headD 0 := hnx
      rw [hd]
      have hk : Kp M g0 L g' (removeRot e L') := by
        refine ⟨⟨h2, fun x => (removeRot_sub e L' x).trans (h.cut.sub x), ?_, h4.trans h.cut.N, by have := h.cut.M; omega, h5.trans h.cut.arcCap,
          h8.trans h.cut.stackCap, h6.trans h.cut.flags, fun v => (h10 v).trans (h.cut.index v)⟩, ?_, ?_⟩
        · intro x f hf
          obtain ⟨f1, f2, f3⟩ := mem_removeRot.1 hf
          rw [(h9 f f2 f3).1]
          exact h.cut.nbr x f f1
        · intro x f hf
          obtain ⟨f1, f2, f3⟩ := mem_removeRot.1 hf
          rw [(h9 f f2 f3).2]
          exact h.flags x f f1
        · intro x f hf hM
          refine mem_removeRot.2 ⟨h.keep x f hf hM, ?_, ?_⟩
          · rintro rfl; exact hne hM
          · rintro rfl; exact hne' hM
      have hr : removeRot e L' v = P ++ T := by
        have hnt : twin e ∉ L' v := fun hh => ha v e heL ((h.cut.sub v).subset hh)
        unfold removeRot
        rw [hl] at hnd hnt ⊢
        rw [List.nodup_append, List.nodup_cons] at hnd
        rw [List.filter_append, List.filter_cons_of_neg (by simp)]
        congr 1 <;> refine List.filter_eq_self.2 fun a ha => ?_
        · simp only [ne_eq, decide_eq_true_eq]
          exact ⟨fun hh => hnd.2.2 a ha e List.mem_cons_self hh, fun hh => hnt (by rw [← hh]; simp [ha])⟩
        · simp only [ne_eq, decide_eq_true_eq]
          exact ⟨fun hh => hnd.2.1.1 (hh ▸ ha), fun hh => hnt (by rw [← hh]; simp [ha])⟩
      refine (deleteLoop_kept ha hm ht fuel T P g' _ hk hr hP).mono fun g'' ⟨L'', a, b, c⟩ => ⟨L'', a, fun x => (b x).trans (removeRot_sub e L' x), c⟩

theorem deleteAll_kept (ha : ∀ x e, e ∈ L x → twin e ∉ L x) (hm : ∀ x e, e ∈ L x → ((g0.E e).flags &&& 1 ≠ 0 ↔ M e)) (ht : ∀ e, M (twin e) → M e) (h : Inv g0 L) :
    Ens ((List.range g0.N).foldlM (fun g i => do deleteLoop g.eSize g (← g.getArc (i + 1) false)) g0) fun g' =>
      ∃ L', Kp M g0 L g' L' ∧ ∀ x, 1 ≤ x → x ≤ g0.N → ∀ e ∈ L' x, M e := by
  refine Ens.range (R := fun k g' => ∃ L', Kp M g0 L g' L' ∧ ∀ x, 1 ≤ x → x ≤ k → ∀ e ∈ L' x, M e) ⟨L, ⟨.refl h, fun _ _ _ => rfl, fun _ _ h _ => h⟩, fun x h1 h2 => by omega⟩ _ ?_
  rintro k g hk ⟨L', h', hd⟩
  refine Ens.bind (getArc_val (k + 1) false) fun e ⟨hv, he⟩ => ?_
  rw [h'.cut.inv.links.vlink _ _ hv] at he
  have he : e = (L' (k + 1)).headD 0 := he
  rw [he]
  refine (deleteLoop_kept ha hm ht (v := k + 1) _ _ [] g L' h' rfl (by simp)).mono fun g' ⟨L'', a, b, c⟩ => ⟨L'', a, fun x h1 h2 e hx => ?_⟩
  by_cases hxk : x = k + 1
  · subst hxk; exact c e hx
  · exact hd x h1 (by omega) e ((b x).subset hx)

/-- What is left: exactly the marked edges. -/
structure Remains (B : Base) (M : Nat → Prop) (g : Graph) (L' : Nat → List Nat) : Prop where
  inv : Inv g L'
  N : g.N = B.N
  mem : ∀ x e, e ∈ L' x ↔ B.A e ∧ B.own e = x ∧ M e
  nbr : ∀ x e, e ∈ L' x → (g.E e).nbr = B.own (twin e)

theorem deleteUnmarked_kept {s0 : PGraph} {rot : Nat → List Nat} {num inv : Nat → Nat} (hB : NoLoop B) (S : Sorted s0 rot B num inv) (hI : PInv s0 rot) (h : Done B s)
    (hT : Tag B.A t M s.p.g) (ht : ∀ e, M (twin e) → M e) : Ok s.deleteUnmarked fun s' => ∃ L', Remains B M s'.p.g L' := by
  unfold deleteUnmarked
  refine Ok.bind ((putAll_spec hB h).and putAll_kf) fun s1 ⟨⟨L, J⟩, kf⟩ => ?_
  have T1 : Tag B.A t M s1.p.g := hT.flags fun e _ => kf e
  refine Ok.bind (deleteAll_kept (M := M) J.part.lk.apart (fun x e he => (T1 e (J.mem_iff.1 he).1).2) ht (J.pinv S hI).inv) fun g ⟨L', hk, hall⟩ => ?_
  refine Ok.ret ⟨L', hk.cut.inv, hk.cut.N.trans J.part.N, fun x e => ⟨fun he => ?_, fun ⟨h1, h2, h3⟩ => ?_⟩, fun x e he => ?_⟩
  · have hL := (hk.cut.sub x).subset he
    have hr := J.prim hL
    have := J.mem_iff.1 hL
    exact ⟨this.1, this.2, hall x hr.1 (by rw [J.part.N]; exact hr.2) e he⟩
  · exact hk.keep x e (J.mem_iff.2 ⟨h1, h2⟩) h3
  · have hL := (hk.cut.sub x).subset he
    show (g.E e).nbr = _
    rw [hk.cut.nbr x e he, J.nbr (J.mem_iff.1 hL).1]
    unfold Base.own
    rw [twin_twin]

end Verif.Isolate
