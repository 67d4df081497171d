import Verif.Embed.IsoMinor

/-
Hiding the inner edges of the root: which arcs stay.
-/
namespace Verif.Isolate
open Verif Verif.Embed Verif.Graph Verif.EGraph Verif.Random Verif.Test Function

variable {A : Nat → Prop} {g g' g0 : Graph} {L L1 : Nat → List Nat} {K : Nat → Prop} {R : Nat}

/-- The flags of all vertices stay as they are. -/
def VF (g g' : Graph) : Prop := ∀ z, (g'.V z).flags = (g.V z).flags

theorem VF.trans {a b c : Graph} (h : VF a b) (h' : VF b c) : VF a c := fun e => (h' e).trans (h e)

theorem setAdj_vf (e : Nat) (b : Bool) (x : Nat) : Ens (g.setAdj e b x) (VF g) := by
  unfold setAdj wrE
  exact Ens.skip fun _ _ => Ens.ite (fun _ => Ens.some fun _ => rfl) fun _ => Ens.none
theorem setArc_vf (v : Nat) (b : Bool) (x : Nat) : Ens (g.setArc v b x) (VF g) := by
  unfold setArc
  refine Ens.bind (rdV_val v) fun r hr => ?_
  unfold wrV
  refine Ens.ite (fun _ => Ens.some fun z => ?_) fun _ => Ens.none
  show (update g.V v _ z).flags = _
  by_cases hz : z = v
  · subst hz; rw [update_self, hr]; cases b <;> rfl
  · rw [update_of_ne hz]

theorem detachArc_fl (e : Nat) : Ens (g.detachArc e) fun g' => KF g g' ∧ VF g g' := by
  have hA : ∀ (g : Graph) (e : Nat) (b : Bool) (x : Nat), Ens (g.setAdj e b x) fun g' => KF g g' ∧ VF g g' := fun g e b x => (setAdj_kf e b x).and (setAdj_vf e b x)
  have hV : ∀ (g : Graph) (v : Nat) (b : Bool) (x : Nat), Ens (g.setArc v b x) fun g' => KF g g' ∧ VF g g' := fun g e b x => (setArc_kf e b x).and (setArc_vf e b x)
  unfold detachArc
  refine Ens.skip fun n _ => Ens.skip fun p _ => ?_
  have rest : ∀ g1, (KF g g1 ∧ VF g g1) → Ens (if p ≠ 0 then g1.setAdj p false n else do g1.setArc (← g1.getNbr (twin e)) false n) fun g' => KF g g' ∧ VF g g' := fun g1 h1 =>
    Ens.ite (fun _ => (hA _ _ _ _).mono fun _ h => ⟨h1.1.trans h.1, h1.2.trans h.2⟩) fun _ => Ens.skip fun _ _ => (hV _ _ _ _).mono fun _ h => ⟨h1.1.trans h.1, h1.2.trans h.2⟩
  exact Ens.ite (fun _ => Ens.bind (hA _ _ _ _) rest) fun _ => Ens.skip fun _ _ => Ens.bind (hV _ _ _ _) rest

theorem hideEdge_fl (e : Nat) : Ens (g.hideEdge e) fun g' => KF g g' ∧ VF g g' := by
  unfold hideEdge
  exact Ens.bind (detachArc_fl _) fun _ h => (detachArc_fl _).mono fun _ h' => ⟨h.1.trans h'.1, h.2.trans h'.2⟩

theorem restoreHidden_kf : ∀ (fuel : Nat) (g : Graph) (n : Nat), Ens (restoreHidden fuel g n) fun r => KF g r.1
  | 0, g, n => by unfold restoreHidden; exact Ens.ite (fun _ => Ens.none) fun _ => Ens.some (.refl _)
  | fuel + 1, g, n => by
    unfold restoreHidden
    refine Ens.ite (fun _ => Ens.bind pop_sameE fun ⟨e, g1⟩ h1 => ?_) fun _ => Ens.some (.refl _)
    have hk : KF g g1 := fun e => by rw [show g1.E = g.E from h1]
    refine Ens.ite (fun _ => Ens.pure hk) fun _ => Ens.bind (restoreEdge_flg e) fun g2 h2 => (restoreHidden_kf fuel g2 n).mono fun _ h3 => (hk.trans h2.e).trans h3

theorem endIn_sub {l l' : List Nat} (hs : l'.Sublist l) (hn : l.Nodup) (b : Bool) (h : endIn b l ∈ l') : endIn b l' = endIn b l := by
  have key : ∀ {l l' : List Nat}, l'.Sublist l → l.Nodup → l.headD 0 ∈ l' → l'.headD 0 = l.headD 0 := by
    intro l l' hs hn h
    cases l with
    | nil => rw [List.sublist_nil.1 hs]
    | cons a l =>
      obtain ⟨h1, h2⟩ := List.nodup_cons.1 hn
      cases hs with
      | cons _ hs => exact absurd (hs.subset h) h1
      | cons_cons _ hs => rfl
  cases b with
  | false => exact key hs hn h
  | true =>
    refine key (l := l.reverse) (l' := l'.reverse) (List.reverse_sublist.2 hs) (List.nodup_reverse.2 hn) ?_
    rw [List.mem_reverse]; exact h

theorem endIn_last {l : List Nat} {a b : Nat} : endIn true (a :: b :: l) = endIn true (b :: l) := by
  have : ∀ (l : List Nat) (a : Nat), l ≠ [] → (l ++ [a]).headD 0 = l.headD 0 := by
    intro l a h
    cases l with
    | nil => exact absurd rfl h
    | cons x l => rfl
  show ((a :: b :: l).reverse).headD 0 = ((b :: l).reverse).headD 0
  rw [List.reverse_cons]
  exact this _ _ (by simp)

/-- The state while inner edges of a vertex are hidden: arcs of `K` stay. -/
structure Veil (A : Nat → Prop) (L : Nat → List Nat) (K : Nat → Prop) (g0 g : Graph) (L1 : Nat → List Nat) : Prop where
  lk : Lk A g L1
  sub : ∀ x, (L1 x).Sublist (L x)
  keep : ∀ x e, e ∈ L x → K e → e ∈ L1 x
  kf : KF g0 g
  vf : VF g0 g

theorem hideInternal_veil (hn : (L R).Nodup) (hK : ∀ e, K (twin e) → K e) {f l : Nat} (hf : endIn true (L R) = l) (hl : l ∈ L R) (hKl : K l) (hfl : f ≠ l) (hR : ∀ e ∈ L R, K e → e = f ∨ e = l) :
    ∀ (fuel : Nat) (g : Graph) (e : Nat) (L1 : Nat → List Nat) (T : List Nat), Veil A L K g0 g L1 → L1 R = f :: e :: T →
      Ens (hideInternal R fuel g e) fun g' => ∃ L2, Veil A L K g0 g' L2 ∧ L2 R = [f, l]
  | 0, _, _, _, _, _, _ => Ens.none
  | fuel + 1, g, e, L1, T, h, hT => by
    have hlast : endIn true (L1 R) = l := by rw [← hf]; exact endIn_sub (h.sub R) hn true (by rw [hf]; exact h.keep R l hl hKl)
    have hnd := h.lk.links.nodup R
    rw [hT] at hnd
    obtain ⟨n1, n2⟩ := List.nodup_cons.1 hnd
    obtain ⟨n3, n4⟩ := List.nodup_cons.1 n2
    unfold hideInternal
    refine Ens.bind (getArc_val R true) fun a ha => ?_
    rw [h.lk.links.vlink R true ha.1, hlast] at ha
    have hlast' : endIn true (e :: T) = l := by rw [hT, endIn_last] at hlast; exact hlast
    refine Ens.ite (fun hel => Ens.pure ⟨L1, h, ?_⟩) fun hel => ?_
    · rw [ha.2] at hel
      cases T with
      | nil => rw [hT, hel]
      | cons b T =>
        exfalso
        rw [endIn_last] at hlast'
        have := endIn_mem' (l := b :: T) (by simp) true
        rw [hlast', ← hel] at this
        exact n3 this
    · rw [ha.2] at hel
      cases T with
      | nil => exact absurd hlast' hel
      | cons b T =>
        have hp : Ens (g.push e) fun g' => g' = { g with stack := e :: g.stack } := by
          unfold push; exact Ens.ite (fun _ => Ens.some rfl) fun _ => Ens.none
        refine Ens.bind hp fun g1 hg1 => ?_
        subst hg1
        have k1 : Lk A { g with stack := e :: g.stack } L1 := h.lk.fr (fr_stack _ _)
        have he : e ∈ L1 R := by rw [hT]; simp
        obtain ⟨g2, e1, k2, e2, e3, e4⟩ := k1.hide he
        refine Ens.bind ((hideEdge_fl e).and (Q := fun g => g = g2) (fun g h => by rw [e1] at h; exact (Option.some.inj h).symm)) fun g' ⟨hfl', hg'⟩ => ?_
        subst hg'
        have hKe : ¬ K e := fun hh => by
          rcases hR e ((h.sub R).subset he) hh with rfl | h2
          · exact n1 (by simp)
          · exact hel h2
        refine Ens.bind (getAdj_val e false) fun n hn' => ?_
        have hnb : n = b := by
          rw [hn', e3]
          show (g.E e).link false = b
          rw [h.lk.links.elink R false e he, hT]
          show nextIn (f :: e :: b :: T) e = b
          have : f ≠ e := fun hh => n1 (by rw [hh]; simp)
          simp [nextIn, this]
        subst hnb
        refine hideInternal_veil hn hK hf hl hKl hfl hR fuel g' n _ T ⟨k2, fun x => (removeRot_sub e L1 x).trans (h.sub x), ?_, h.kf.trans hfl'.1, h.vf.trans hfl'.2⟩ ?_
        · intro x a ha hKa
          refine mem_removeRot.2 ⟨h.keep x a ha hKa, ?_, ?_⟩
          · rintro rfl; exact hKe hKa
          · rintro rfl; exact hKe (hK _ hKa)
        · unfold removeRot
          have ht : ∀ a ∈ f :: n :: T, a ≠ e ∧ a ≠ twin e := by
            intro a ha
            constructor
            · rintro rfl
              rcases List.mem_cons.1 ha with h2 | h2
              · exact n1 (by rw [← h2]; simp)
              · exact n3 h2
            · rintro rfl
              refine h.lk.apart R e he ?_
              rw [hT]; simp at ha ⊢; tauto
          rw [hT, List.filter_cons_of_pos (by simpa using ht f (by simp)), List.filter_cons_of_neg (by simp)]
          congr 1
          exact List.filter_eq_self.2 fun a ha => by simpa using ht a (List.mem_cons_of_mem _ ha)

theorem hideInternalEdges_veil (k : Lk A g L) (hK : ∀ e, K (twin e) → K e) (hne : L R ≠ []) (hfl : endIn false (L R) ≠ endIn true (L R)) (hKl : K (endIn true (L R)))
    (hR : ∀ e ∈ L R, K e → e = endIn false (L R) ∨ e = endIn true (L R)) :
    Ens (hideInternalEdges g R) fun g' => ∃ L2, Veil A L K g g' L2 ∧ L2 R = [endIn false (L R), endIn true (L R)] := by
  unfold hideInternalEdges
  refine Ens.bind (getArc_val R false) fun e he => Ens.bind (getArc_val R true) fun l hl => ?_
  rw [k.links.vlink R _ he.1] at he hl
  rw [if_neg (by rw [he.2, hl.2]; exact hfl)]
  refine Ens.bind (getAdj_val e false) fun n hn => ?_
  obtain ⟨f, T, hT⟩ := List.exists_cons_of_ne_nil hne
  have hf : endIn false (L R) = f := by rw [hT]; rfl
  cases T with
  | nil => rw [hT] at hfl; exact absurd rfl hfl
  | cons b T =>
    have hnb : n = b := by
      rw [hn, he.2, hf, k.links.elink R false f (by rw [hT]; simp), hT]
      simp [nextIn]
    subst hnb
    rw [hf] at hfl hR ⊢
    exact hideInternal_veil (k.links.nodup R) hK rfl (endIn_mem' hne true) hKl hfl hR _ g n L T ⟨k, fun _ => .refl _, fun _ _ h _ => h, .refl _, fun _ => rfl⟩ hT

end Verif.Isolate
